import Verif.Props.Derive
import Verif.Props.FmtOptions
import Verif.Props.FlattenJson

set_option autoImplicit false

/-!
# Flattened fields and other crates: C78

A struct with `#[sval(flatten)]` should be to `sval_fmt` and to `sval_serde` the struct with the flattened fields written
out.
-/

namespace Sval

open Rust
open Derive (Field Attrs FV stream ftree ftrees fok structRows flatRows keyText)
open Fmt (Out lay entry layout twice)
open Serde (SCall serialize serializable)

/-! ## Formatting -/

/-- `format!("{:?}", ToFmt::new(x))`, for code that makes calls of its own: `Fmt.format`. -/
def formatOf (opts : Fmt.Opts) (fl : Fmt.Floats) (env : Fmt.Env) (x : Derive.Streamer) : Option Text :=
  match x _ (Fmt.callW (Fmt.invoke (Fmt.byRef (Fmt.formatter opts fl Fmt.onto) env) env)) (Fmt.St.new []) with
  | .done true s => some s.out
  | .done false s =>
    match Fmt.puts' Fmt.onto [t! "<", t! "an error occurred when formatting an argument", t! ">"] s.out with
    | .ok o => some o
    | _ => none
  | .panicked => none

theorem formatOf_value (opts : Fmt.Opts) (fl : Fmt.Floats) (env : Fmt.Env) (x : Derive.Streamer) (v : V)
    (h : ∀ {σ : Type} (S : Token → σ → Res Unit σ) (s : σ), x σ S s = drive S (valueOf v) s) :
    formatOf opts fl env x = Fmt.format opts fl env (valueOf v) := by
  simp only [formatOf, h, Fmt.format, Fmt.displayWith, Fmt.toFmt, Fmt.toTokenWrite, Fmt.streamTo]
  cases drive (Fmt.callW (Fmt.invoke (Fmt.byRef (Fmt.formatter opts fl Fmt.onto) env) env)) (valueOf v) (Fmt.St.new []) with
  | done ok s => cases ok <;> simp [puts'_onto]
  | panicked => rfl

/-- The name under which an entry is written: the text of its key, or its label. -/
def entryName (K : V → Text) (e : Flatten.Entry) : Text :=
  match e.key with
  | some k => K k
  | none => (e.label.map (·.text)).getD []

/-- The fields of a struct as they are written: those that are flattened are written as their entries. -/
def writtenOut (env : Fmt.Env) (K : V → Text) (rs : List (Field × V)) : List Out :=
  rs.flatMap fun r =>
    if r.1.flatten then
      (Flatten.entries r.2).map fun e => entry (lay .ident (entryName K e)) (layout env twice false e.val)
    else [entry (lay .ident (Derive.name r.1).text) (layout env twice false (Derive.data r.1 r.2))]

theorem structRows_out (env : Fmt.Env) (K : V → Text) (c fc : Bool) (i : Int) (g : Bool) (n : Int) (rs : List (Field × V))
    (h : ∀ r ∈ rs, r.1.flatten = true → ∀ e ∈ Flatten.entries r.2, e.key.isSome = true ∨ e.label.isSome = true) :
    (structRows K c fc i g n rs).map (fun r => entry (lay .ident r.2.1.text) (layout env twice false r.2.2.2)) = writtenOut env K rs := by
  induction rs generalizing i g n with
  | nil => rfl
  | cons r rs ih =>
    obtain ⟨f, v⟩ := r
    have ih' := fun i g n => ih i g n fun r hr => h r (.tail _ hr)
    have e : writtenOut env K ((f, v) :: rs) = (if f.flatten then
        (Flatten.entries v).map fun e => entry (lay .ident (entryName K e)) (layout env twice false e.val)
      else [entry (lay .ident (Derive.name f).text) (layout env twice false (Derive.data f v))]) ++ writtenOut env K rs := rfl
    rw [structRows, e]
    cases hf : f.flatten with
    | true =>
      have h' := h (f, v) (.head _) hf
      simp only [if_true, List.map_append, ih', flatRows, List.map_map]
      congr 1
      have h1 : ∀ es : List (Flatten.Entry × Index), (∀ x ∈ es, x.1.key.isSome = true ∨ x.1.label.isSome = true) →
          es.map (fun x => entry (lay .ident (Flatten.labelOf K x.1 x.2).text) (layout env twice false x.1.val)) =
            (es.map Prod.fst).map fun e => entry (lay .ident (entryName K e)) (layout env twice false e.val) := by
        intro es hx
        rw [List.map_map]
        refine List.map_congr_left fun x hm => ?_
        have : (Flatten.labelOf K x.1 x.2).text = entryName K x.1 := by
          unfold Flatten.labelOf entryName
          cases hk : x.1.key with
          | some k => rfl
          | none =>
            rcases hx x hm with h | h
            · rw [hk] at h; cases h
            · obtain ⟨l, hl⟩ := Option.isSome_iff_exists.mp h; rw [hl]; rfl
        rw [this]
        rfl
      have h2 := h1 (Flatten.number n n (Flatten.entries v)).1 (by
        intro x hx
        refine h' x.1 ?_
        rw [← C28_count n v]
        exact List.mem_map_of_mem hx)
      rw [C28_count n v] at h2
      simpa [Function.comp_def] using h2
    | false => simp [ih']

theorem layoutRec_map (env : Fmt.Env) (xs : List (Option Tag × Label × V)) :
    Fmt.layoutRec env twice xs = xs.map fun x => entry (lay .ident x.2.1.text) (layout env twice false x.2.2) := by
  induction xs with
  | nil => rfl
  | cons x xs ih => rw [Fmt.layoutRec, ih]; rfl
theorem layoutRT_map (env : Fmt.Env) (xs : List (Option Tag × Label × Index × V)) :
    Fmt.layoutRT env twice xs = xs.map fun x => entry (lay .ident x.2.1.text) (layout env twice false x.2.2.2) := by
  induction xs with
  | nil => rfl
  | cons x xs ih => rw [Fmt.layoutRT, ih]; rfl

/-- C78. A struct with named fields is formatted as if the fields of its flattened fields were its own; also the entries of
maps, under the text of their keys, and variants of enums. Values that have no entries, as `None`, are not written. -/
theorem C78_fmt (fl : Fmt.Floats) (env : Fmt.Env) (ryu : UInt64 → Text) (named : Bool) (name : Text) (at' : Attrs) (fs : List Field)
    (xs : List FV) (hx : fok (keyText ryu) (.struct named name at' fs xs))
    (hl : Derive.labeled named at' (Derive.rows fs (ftrees (keyText ryu) xs)) = true)
    (h : ∀ r ∈ Derive.rows fs (ftrees (keyText ryu) xs), r.1.flatten = true →
      ∀ e ∈ Flatten.entries r.2, e.key.isSome = true ∨ e.label.isSome = true) :
    formatOf {} fl env (stream true ryu (.struct named name at' fs xs)) =
      some (Out.text (lay .ident (Derive.labelOr at'.label name).text ++ lay .ws (t! " ") ++
        Fmt.braces (writtenOut { env with f32 := fun b => (fl.f32 {} b).flatten, f64 := fun b => (fl.f64 {} b).flatten }
          (keyText ryu) (Derive.rows fs (ftrees (keyText ryu) xs))))) := by
  rw [formatOf_value _ _ _ _ _ fun S s => (C40_exact ryu _ hx S s).1, C74_exact, C26_exact]
  simp only [ftree, Derive.flatTree, hl]
  generalize ({ env with f32 := fun b => (fl.f32 {} b).flatten, f64 := fun b => (fl.f64 {} b).flatten } : Fmt.Env) = env'
  cases Derive.indexed at' (Derive.rows fs (ftrees (keyText ryu) xs)) with
  | true =>
    simp only [layout, layoutRT_map, structRows_out env' _ _ _ _ _ _ _ h]
    rfl
  | false =>
    simp only [layout, layoutRec_map, List.map_map]
    have := structRows_out env' (keyText ryu) false true 0 false 0 _ h
    simp only [Function.comp_def] at this ⊢
    rw [this]
    rfl

theorem layoutTup_map (env : Fmt.Env) (xs : List (Option Tag × Index × V)) :
    Fmt.layoutTup env twice xs = xs.map fun x => layout env twice false x.2.2 := by
  induction xs with
  | nil => rfl
  | cons x xs ih => rw [Fmt.layoutTup, ih]; rfl
theorem layoutSeq_map (env : Fmt.Env) (xs : List V) : Fmt.layoutSeq env twice xs = xs.map (layout env twice false) := by
  induction xs with
  | nil => rfl
  | cons x xs ih => rw [Fmt.layoutSeq, ih]; rfl

/-- C78 for structs without names for their fields: the values in flattened fields are written among the others, whatever
they are in. If the fields have no indexes either they are a list. -/
theorem C78_fmt_tuple (fl : Fmt.Floats) (env : Fmt.Env) (ryu : UInt64 → Text) (named : Bool) (name : Text) (at' : Attrs) (fs : List Field)
    (xs : List FV) (hx : fok (keyText ryu) (.struct named name at' fs xs))
    (hl : Derive.labeled named at' (Derive.rows fs (ftrees (keyText ryu) xs)) = false) :
    let env' := { env with f32 := fun b => (fl.f32 {} b).flatten, f64 := fun b => (fl.f64 {} b).flatten }
    let outs := (Derive.rows fs (ftrees (keyText ryu) xs)).flatMap fun r =>
      if r.1.flatten then (Flatten.entries r.2).map fun e => layout env' twice false e.val
      else [layout env' twice false (Derive.data r.1 r.2)]
    formatOf {} fl env (stream true ryu (.struct named name at' fs xs)) =
      some (Out.text (lay .ident (Derive.labelOr at'.label name).text ++
        if Derive.indexed at' (Derive.rows fs (ftrees (keyText ryu) xs)) then Fmt.parens outs else Fmt.parens [Fmt.brackets outs])) := by
  intro env' outs
  have houts : outs = ((Derive.rows fs (ftrees (keyText ryu) xs)).flatMap Derive.contents).map (layout env' twice false) := by
    show List.flatMap _ _ = _
    rw [List.map_flatMap]
    congr 1
    funext r
    unfold Derive.contents
    cases r.1.flatten <;> simp
  rw [formatOf_value _ _ _ _ _ fun S s => (C40_exact ryu _ hx S s).1, C74_exact, C26_exact]
  simp only [ftree, Derive.flatTree, hl]
  cases Derive.indexed at' (Derive.rows fs (ftrees (keyText ryu) xs)) with
  | true =>
    rw [houts, ← Derive.structRows_values (keyText ryu) true true 0 false 0]
    simp only [layout, layoutTup_map, List.map_map, Function.comp_def]
    rfl
  | false =>
    rw [houts, ← Derive.structRows_values (keyText ryu) false false 0 false 0]
    simp only [layout, layoutSeq_map]
    rfl

/-! ## Serializing -/

/-- `ToSerialize::new(x).serialize(serializer)`, for code that makes calls of its own: `Serde.serialize`. -/
def serializeOf {ε τ : Type} (custom : ε) (S : SCall ε τ → τ → Res ε τ) (d : Nat) (x : Derive.Streamer) (s : τ) : Res ε τ :=
  Serde.finish custom <|
    match x _ (Nested.call (Serde.adapter custom S (Serde.into custom S d))) { s := { s } } with
    | .done _ st => .done (st.mode = .done true) st.s
    | .panicked => .panicked

theorem serializeOf_value {ε τ : Type} (custom : ε) (S : SCall ε τ → τ → Res ε τ) (d : Nat) (x : Derive.Streamer) (v : V)
    (h : ∀ {σ : Type} (S : Token → σ → Res Unit σ) (s : σ), x σ S s = drive S (valueOf v) s) (s : τ) :
    serializeOf custom S d x s = serialize custom S (d + 1) (valueOf v) s := by
  unfold serializeOf serialize Serde.into Nested.stream
  rw [h]
  congr 1
  have : ∀ (C : _) (ts : List Token) (st : Nested.St (Serde.St ε τ)),
      drive (Nested.call C) (Prog.ofToks ts) st = Nested.exec C (Prog.ofToks ts) false st := by
    intro C ts st
    rw [drive_ofToks]
    induction ts generalizing st with
    | nil => rfl
    | cons t ts ih =>
      simp only [run, Prog.ofToks, Nested.exec, Bool.false_eq_true, if_false]
      cases hc : Nested.call C t st with
      | ok st => exact ih st
      | err e st => rfl
      | panic => rfl
  rw [valueOf, this]
  cases Nested.exec (Serde.adapter custom S (Serde.into custom S d)) (Prog.ofToks (toks v)) false { s := { s := s } } <;> simp

/-- A struct that announces no length. -/
theorem serialize_unsized {ε τ : Type} (custom : ε) (S : SCall ε τ → τ → Res ε τ) (d : Nat) (s : τ) (v : V) (m : Meta)
    (hv : (∃ fs, v = .recordTuple m none fs) ∨ (∃ fs, v = .record m none fs) ∨ (∃ fs, v = .tuple m none fs)) :
    serialize custom S (d + 1) (valueOf v) s = .err custom s := by
  rcases hv with ⟨fs, rfl⟩ | ⟨fs, rfl⟩ | ⟨fs, rfl⟩ <;> rfl

/-- C78 is false for serde: a struct with a flattened field cannot be serialized, by any serializer, unless its fields have
neither labels nor indexes. -/
theorem C78_serde_fails {ε τ : Type} (custom : ε) (S : SCall ε τ → τ → Res ε τ) (d : Nat) (s : τ) (ryu : UInt64 → Text)
    (named : Bool) (name : Text) (at' : Attrs) (fs : List Field) (xs : List FV)
    (hx : fok (keyText ryu) (.struct named name at' fs xs))
    (hf : ∃ r ∈ Derive.rows fs xs, r.1.flatten = true)
    (ht : Derive.labeled named at' (Derive.rows fs xs) = true ∨ at'.unindexed = false) :
    serializeOf custom S d (stream true ryu (.struct named name at' fs xs)) s = .err custom s := by
  rw [serializeOf_value custom S d _ _ fun S s => (C40_exact ryu _ hx S s).1]
  have e : ftrees (keyText ryu) xs = xs.map (ftree (keyText ryu)) := by
    clear hx hf ht
    induction xs with
    | nil => rfl
    | cons x xs ih => rw [ftrees, ih]; rfl
  have hn : (Derive.rows fs (ftrees (keyText ryu) xs)).any (·.1.flatten) = true := by
    obtain ⟨r, hr, hf⟩ := hf
    rw [e, Derive.rows_map]
    exact List.any_eq_true.2 ⟨_, List.mem_map_of_mem hr, hf⟩
  have hl' : Derive.labeled named at' (Derive.rows fs (ftrees (keyText ryu) xs)) = Derive.labeled named at' (Derive.rows fs xs) := by
    rw [e, Derive.rows_map]
    exact labeled_map (fun r => (r.1, ftree (keyText ryu) r.2)) (fun _ => rfl) _ _ _
  refine serialize_unsized custom S d s _ { tag := at'.tag, label := some (Derive.labelOr at'.label name), index := at'.index.map attrIndex } ?_
  simp only [ftree, Derive.flatTree, hn, if_true, hl']
  cases hl : Derive.labeled named at' (Derive.rows fs xs) <;> cases hi : Derive.indexed at' (Derive.rows fs (ftrees (keyText ryu) xs))
  · simp only [hl, Bool.false_eq_true, false_or] at ht
    simp [Derive.indexed, ht] at hi
  · exact .inr (.inr ⟨_, rfl⟩)
  · exact .inr (.inl ⟨_, rfl⟩)
  · exact .inl ⟨_, rfl⟩

theorem fok_outer (K : V → Text) : fok K outer := by
  refine ⟨⟨rfl, rfl, ?_⟩, trivial, ⟨⟨rfl, by simp, rfl⟩, trivial, trivial, trivial⟩, trivial, trivial, trivial⟩
  have he : Flatten.entries (ftree K inner) = [⟨none, none, some (identLabel (t! "x")), some (offset 0), .bool true⟩,
    ⟨none, none, some (identLabel (t! "y")), some (offset 1), .tag Serde.unitMeta⟩] := rfl
  refine ⟨⟨rfl, show Flatten.isIsize 1 by decide, ?_, ?_⟩, trivial⟩
  · rw [he]
    show Flatten.inRange 1 1 _
    decide
  · rw [he]
    simp [toks]

/-- The hypotheses of C78 hold of `{ a: u8, #[sval(flatten)] b: B, #[sval(skip)] s: (), c: u8 }`. -/
example (fl : Fmt.Floats) (env : Fmt.Env) (ryu : UInt64 → Text) :
    formatOf {} fl env (stream true ryu outer) = some (t! "A { a: 1, x: true, y: (), c: 2 }") := by
  refine (C78_fmt fl env ryu _ _ _ _ _ (fok_outer _) rfl ?_).trans ?_
  rotate_left
  · rfl
  · intro r hr hf e he
    have hr : r ∈ [(({ ident := some (t! "a") } : Field), V.int .u8 1), ({ ident := some (t! "b"), flatten := true }, ftree (keyText ryu) inner),
      ({ ident := some (t! "c") }, .int .u8 2)] := hr
    simp only [List.mem_cons, List.not_mem_nil, or_false] at hr
    rcases hr with rfl | rfl | rfl
    · cases hf
    · have he : e ∈ [(⟨none, none, some (identLabel (t! "x")), some (offset 0), .bool true⟩ : Flatten.Entry),
        ⟨none, none, some (identLabel (t! "y")), some (offset 1), .tag Serde.unitMeta⟩] := he
      simp only [List.mem_cons, List.not_mem_nil, or_false] at he
      rcases he with rfl | rfl <;> exact .inr rfl
    · cases hf

example {ε τ : Type} (custom : ε) (S : SCall ε τ → τ → Res ε τ) (d : Nat) (s : τ) (ryu : UInt64 → Text) :
    serializeOf custom S d (stream true ryu outer) s = .err custom s :=
  C78_serde_fails custom S d s ryu true (t! "A") {} _ _ (fok_outer _) ⟨_, .tail _ (.head _), rfl⟩ (.inl rfl)

/-- `struct A(u8, #[sval(flatten)] [bool], #[sval(flatten)] Option<u8>, u8)` with two in the list and `None` -/
def outerTuple : FV := .struct false (t! "A") {} [{}, { flatten := true }, { flatten := true }, {}]
  [.plain (.int .u8 1), .plain (.slice [.bool true, .bool false]), .plain .none, .plain (.int .u8 2)]

/-- The hypotheses of `C78_fmt_tuple` hold of it. -/
example (fl : Fmt.Floats) (env : Fmt.Env) (ryu : UInt64 → Text) :
    formatOf {} fl env (stream true ryu outerTuple) = some (t! "A(1, true, false, 2)") := by
  refine (C78_fmt_tuple fl env ryu _ _ _ _ _ ?_ rfl).trans rfl
  refine ⟨⟨rfl, rfl, ?_⟩, trivial, ⟨trivial, trivial, trivial⟩, trivial, trivial, trivial⟩
  have he : Flatten.entries (ftree (keyText ryu) (.plain (.slice [.bool true, .bool false]))) =
    [⟨none, none, none, none, .bool true⟩, ⟨none, none, none, none, .bool false⟩] := rfl
  refine ⟨⟨rfl, show Flatten.isIsize 1 by decide, ?_, ?_⟩, ⟨rfl, show Flatten.isIsize 3 by decide, trivial, nofun⟩, trivial⟩
  · rw [he]
    show Flatten.inRange 1 1 _
    decide
  · rw [he]
    simp [toks]

/-- `struct A { #[sval(flatten)] m: BTreeMap<&str, u8> }` with one entry -/
def outerMap : FV := .struct true (t! "A") {} [{ ident := some (t! "m"), flatten := true }] [.plain (.map [.str (t! "k")] [.int .u8 1])]

/-- Those of `C78_fmt` hold of it too. -/
example (fl : Fmt.Floats) (env : Fmt.Env) (ryu : UInt64 → Text) :
    formatOf {} fl env (stream true ryu outerMap) = some (t! "A { k: 1 }") := by
  have he : Flatten.entries (ftree (keyText ryu) (.plain (.map [.str (t! "k")] [.int .u8 1]))) =
    [{ key := some (.text (some 1) [.borrowed (t! "k")]), val := .int .u8 1 }] := rfl
  refine (C78_fmt fl env ryu _ _ _ _ _ ?_ rfl ?_).trans rfl
  · refine ⟨⟨rfl, rfl, ⟨rfl, show Flatten.isIsize 0 by decide, ?_, ?_⟩, trivial⟩, ⟨rfl, ⟨trivial, trivial⟩, trivial, trivial⟩, trivial⟩
    · rw [he]
      show Flatten.inRange 0 0 _
      decide
    · rw [he]
      simp [toks]
  · intro r hr _ e he'
    have hr : r ∈ [(({ ident := some (t! "m"), flatten := true } : Field), ftree (keyText ryu) (.plain (.map [.str (t! "k")] [.int .u8 1])))] := hr
    rw [List.mem_singleton] at hr
    subst hr
    rw [he, List.mem_singleton] at he'
    subst he'
    exact .inl rfl

end Sval
