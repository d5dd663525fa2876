import Verif.Serde.Round

set_option autoImplicit false

/-!
# Code that streams a value

`Emits q v`: on any stream, `q` makes the calls of `v`, directly or through `value_computed`; and a recursive stream is
shown `v`.
-/

namespace Sval

open Nested (Item Shows seen own)

structure Emits (q : List Item) (v : V) : Prop where
  calls : ∀ c, Nested.flat q c = if c then (toks v).map computedTok else toks v
  shows : Shows q (seen v)

namespace Emits

theorem null : Emits [.tok .null] .null := ⟨fun c => by cases c <;> rfl, .null⟩
theorem bool (b : Bool) : Emits [.tok (.bool b)] (.bool b) := ⟨fun c => by cases c <;> rfl, .bool b⟩
theorem int (t : IntTy) (v : Int) : Emits [.tok (.int t v)] (.int t v) := ⟨fun c => by cases c <;> rfl, .int t v⟩
theorem f32 (b : UInt32) : Emits [.tok (.f32 b)] (.f32 b) := ⟨fun c => by cases c <;> rfl, .f32 b⟩
theorem f64 (b : UInt64) : Emits [.tok (.f64 b)] (.f64 b) := ⟨fun c => by cases c <;> rfl, .f64 b⟩
theorem tag (m : Meta) : Emits [.tok (.tag m)] (.tag m) := ⟨fun c => by cases c <;> rfl, .tag m⟩

theorem flat_toks (ts : List Token) (c : Bool) : Nested.flat (ts.map .tok) c = if c then ts.map computedTok else ts := by
  induction ts with
  | nil => cases c <;> rfl
  | cons t ts ih => rw [List.map_cons, Nested.flat_tok_cons, ih]; cases c <;> rfl

theorem text (n : Option Nat) (fs : List (Frag Text)) :
    Emits (.tok (.textBegin n) :: (fs.map (Item.tok ∘ textFragTok) ++ [.tok .textEnd])) (.text n fs) := by
  refine ⟨fun c => ?_, .text n fs⟩
  rw [← flat_toks]
  simp [toks, Function.comp_def]

theorem binary (n : Option Nat) (fs : List (Frag Bytes)) :
    Emits (.tok (.binaryBegin n) :: (fs.map (Item.tok ∘ binFragTok) ++ [.tok .binaryEnd])) (.binary n fs) := by
  refine ⟨fun c => ?_, .binary n fs⟩
  rw [← flat_toks]
  simp [toks, Function.comp_def]

theorem val {q : List Item} {v : V} (h : Emits q v) : Emits [.val q] v :=
  ⟨fun c => by rw [Serde.flat_val_cons, Serde.flat_nil, List.append_nil, h.calls], .val _ _ h.shows⟩

theorem comp {q : List Item} {v : V} (h : Emits q v) (hv : (toks v).map computedTok = toks v) : Emits [.comp q] v := by
  refine ⟨fun c => ?_, .comp _ _ h.shows⟩
  rw [Serde.flat_comp_cons, Serde.flat_nil, List.append_nil, h.calls]
  cases c <;> simp [hv]

theorem computedTok_tagged (m : Meta) : computedTok (.taggedBegin m) = .taggedBegin m ∧ computedTok (.taggedEnd m) = .taggedEnd m :=
  ⟨rfl, rfl⟩

theorem tagged (m : Meta) {q : List Item} {v : V} (h : Emits q v) :
    Emits (.tok (.taggedBegin m) :: (q ++ [.tok (.taggedEnd m)])) (.tagged m v) := by
  refine ⟨fun c => ?_, .tagged m _ _ h.shows⟩
  rw [Nested.flat_tok_cons, Nested.flat_append, h.calls, Nested.flat_tok_cons]
  cases c <;> simp [toks, Serde.flat_nil]

theorem enum (m : Meta) {q : List Item} {v : V} (h : Emits q v) :
    Emits (.tok (.enumBegin m) :: (q ++ [.tok (.enumEnd m)])) (.enum m v) := by
  refine ⟨fun c => ?_, .enum m _ _ h.shows⟩
  rw [Nested.flat_tok_cons, Nested.flat_append, h.calls, Nested.flat_tok_cons]
  cases c <;> simp [toks, Serde.flat_nil]

theorem seq (n : Option Nat) (L : List (List Item × V)) (h : ∀ x ∈ L, Emits x.1 x.2) :
    Emits (.tok (.seqBegin n) :: ((L.flatMap fun x => .tok .seqValueBegin :: (x.1 ++ [.tok .seqValueEnd])) ++
      [.tok .seqEnd])) (.seq n (L.map (·.2))) := by
  constructor
  · intro c
    have : Nested.flat (L.flatMap fun x => .tok .seqValueBegin :: (x.1 ++ [.tok .seqValueEnd])) c =
        if c then (toksSeq (L.map (·.2))).map computedTok else toksSeq (L.map (·.2)) := by
      induction L with
      | nil => cases c <;> rfl
      | cons x L ih =>
        rw [List.flatMap_cons, Nested.flat_append, ih fun y hy => h y (.tail _ hy), Nested.flat_tok_cons, Nested.flat_append,
          (h x (.head _)).calls, Nested.flat_tok_cons]
        cases c <;> simp [toksSeq, Serde.flat_nil, computedTok]
    rw [Nested.flat_tok_cons, Nested.flat_append, this, Nested.flat_tok_cons]
    cases c <;> simp [toks, Serde.flat_nil]
  · have := Shows.seq n (L.map fun x => (x.1, seen x.2)) (fun y hy => by obtain ⟨x, hx, rfl⟩ := List.mem_map.mp hy; exact (h x hx).shows)
    have e : ∀ L : List (List Item × V), Nested.seenSeq (L.map (·.2)) = L.map fun x => seen x.2 := by
      intro L
      induction L with
      | nil => rfl
      | cons x L ih => simp [Nested.seenSeq, ih]
    simpa [seen, e, List.flatMap_map, Function.comp_def] using this

theorem map (n : Option Nat) (L : List ((List Item × V) × (List Item × V)))
    (h1 : ∀ x ∈ L, Emits x.1.1 x.1.2) (h2 : ∀ x ∈ L, Emits x.2.1 x.2.2) :
    Emits (.tok (.mapBegin n) :: ((L.flatMap fun x =>
      .tok .mapKeyBegin :: (x.1.1 ++ [.tok .mapKeyEnd]) ++
      .tok .mapValueBegin :: (x.2.1 ++ [.tok .mapValueEnd])) ++ [.tok .mapEnd]))
      (.map n (L.map fun x => (x.1.2, x.2.2))) := by
  constructor
  · intro c
    have : Nested.flat (L.flatMap fun x => .tok .mapKeyBegin :: (x.1.1 ++ [.tok .mapKeyEnd]) ++
      .tok .mapValueBegin :: (x.2.1 ++ [.tok .mapValueEnd])) c =
        if c then (toksMap (L.map fun x => (x.1.2, x.2.2))).map computedTok else toksMap (L.map fun x => (x.1.2, x.2.2)) := by
      induction L with
      | nil => cases c <;> rfl
      | cons x L ih =>
        rw [List.flatMap_cons, Nested.flat_append, ih (fun y hy => h1 y (.tail _ hy)) (fun y hy => h2 y (.tail _ hy)),
          Nested.flat_append, Nested.flat_tok_cons, Nested.flat_append, (h1 x (.head _)).calls, Nested.flat_tok_cons,
          Nested.flat_tok_cons, Nested.flat_append, (h2 x (.head _)).calls, Nested.flat_tok_cons]
        cases c <;> simp [toksMap, Serde.flat_nil, computedTok]
    rw [Nested.flat_tok_cons, Nested.flat_append, this, Nested.flat_tok_cons]
    cases c <;> simp [toks, Serde.flat_nil]
  · have := Shows.map n (L.map fun x => ((x.1.1, seen x.1.2), (x.2.1, seen x.2.2)))
      (fun y hy => by obtain ⟨x, hx, rfl⟩ := List.mem_map.mp hy; exact (h1 x hx).shows) (fun y hy => by obtain ⟨x, hx, rfl⟩ := List.mem_map.mp hy; exact (h2 x hx).shows)
    have e : ∀ L : List ((List Item × V) × (List Item × V)), Nested.seenMap (L.map fun x => (x.1.2, x.2.2)) =
        L.map fun x => (seen x.1.2, seen x.2.2) := by
      intro L
      induction L with
      | nil => rfl
      | cons x L ih => simp [Nested.seenMap, ih]
    simpa [seen, e, List.flatMap_map, Function.comp_def] using this

theorem tuple (m : Meta) (n : Option Nat) (L : List (Option Tag × Index × List Item × V))
    (h : ∀ x ∈ L, Emits x.2.2.1 x.2.2.2) :
    Emits (.tok (.tupleBegin m n) :: ((L.flatMap fun x =>
      .tok (.tupleValueBegin x.1 x.2.1) :: (x.2.2.1 ++ [.tok (.tupleValueEnd x.1 x.2.1)])) ++ [.tok (.tupleEnd m)]))
      (.tuple m n (L.map fun x => (x.1, x.2.1, x.2.2.2))) := by
  constructor
  · intro c
    have : Nested.flat (L.flatMap fun x =>
        .tok (.tupleValueBegin x.1 x.2.1) :: (x.2.2.1 ++ [.tok (.tupleValueEnd x.1 x.2.1)])) c =
        if c then (toksTup (L.map fun x => (x.1, x.2.1, x.2.2.2))).map computedTok
        else toksTup (L.map fun x => (x.1, x.2.1, x.2.2.2)) := by
      induction L with
      | nil => cases c <;> rfl
      | cons x L ih =>
        rw [List.flatMap_cons, Nested.flat_append, ih fun y hy => h y (.tail _ hy), Nested.flat_tok_cons, Nested.flat_append,
          (h x (.head _)).calls, Nested.flat_tok_cons]
        cases c <;> simp [toksTup, Serde.flat_nil, computedTok]
    rw [Nested.flat_tok_cons, Nested.flat_append, this, Nested.flat_tok_cons]
    cases c <;> simp [toks, Serde.flat_nil]
  · have := Shows.tuple m n (L.map fun x => (x.1, x.2.1, x.2.2.1, seen x.2.2.2))
      (fun y hy => by obtain ⟨x, hx, rfl⟩ := List.mem_map.mp hy; exact (h x hx).shows)
    have e : ∀ L : List (Option Tag × Index × List Item × V), Nested.seenTup (L.map fun x => (x.1, x.2.1, x.2.2.2)) =
        L.map fun x => (x.1, x.2.1, seen x.2.2.2) := by
      intro L
      induction L with
      | nil => rfl
      | cons x L ih => simp [Nested.seenTup, ih]
    simpa [seen, e, List.flatMap_map, Function.comp_def] using this

theorem record (m : Meta) (n : Option Nat) (L : List (Option Tag × Label × List Item × V))
    (h : ∀ x ∈ L, Emits x.2.2.1 x.2.2.2) :
    Emits (.tok (.recordBegin m n) :: ((L.flatMap fun x =>
      .tok (.recordValueBegin x.1 x.2.1) :: (x.2.2.1 ++ [.tok (.recordValueEnd x.1 x.2.1)])) ++ [.tok (.recordEnd m)]))
      (.record m n (L.map fun x => (x.1, x.2.1, x.2.2.2))) := by
  constructor
  · intro c
    have : Nested.flat (L.flatMap fun x =>
        .tok (.recordValueBegin x.1 x.2.1) :: (x.2.2.1 ++ [.tok (.recordValueEnd x.1 x.2.1)])) c =
        if c then (toksRec (L.map fun x => (x.1, x.2.1, x.2.2.2))).map computedTok
        else toksRec (L.map fun x => (x.1, x.2.1, x.2.2.2)) := by
      induction L with
      | nil => cases c <;> rfl
      | cons x L ih =>
        rw [List.flatMap_cons, Nested.flat_append, ih fun y hy => h y (.tail _ hy), Nested.flat_tok_cons, Nested.flat_append,
          (h x (.head _)).calls, Nested.flat_tok_cons]
        cases c <;> simp [toksRec, Serde.flat_nil, computedTok]
    rw [Nested.flat_tok_cons, Nested.flat_append, this, Nested.flat_tok_cons]
    cases c <;> simp [toks, Serde.flat_nil]
  · have := Shows.record m n (L.map fun x => (x.1, x.2.1, x.2.2.1, seen x.2.2.2))
      (fun y hy => by obtain ⟨x, hx, rfl⟩ := List.mem_map.mp hy; exact (h x hx).shows)
    have e : ∀ L : List (Option Tag × Label × List Item × V), Nested.seenRec (L.map fun x => (x.1, x.2.1, x.2.2.2)) =
        L.map fun x => (x.1, x.2.1.toOwned, seen x.2.2.2) := by
      intro L
      induction L with
      | nil => rfl
      | cons x L ih => simp [Nested.seenRec, ih]
    simpa [seen, e, List.flatMap_map, Function.comp_def] using this

theorem recordTuple (m : Meta) (n : Option Nat) (L : List (Option Tag × Label × Index × List Item × V))
    (h : ∀ x ∈ L, Emits x.2.2.2.1 x.2.2.2.2) :
    Emits (.tok (.recordTupleBegin m n) :: ((L.flatMap fun x =>
      .tok (.recordTupleValueBegin x.1 x.2.1 x.2.2.1) ::
        (x.2.2.2.1 ++ [.tok (.recordTupleValueEnd x.1 x.2.1 x.2.2.1)])) ++ [.tok (.recordTupleEnd m)]))
      (.recordTuple m n (L.map fun x => (x.1, x.2.1, x.2.2.1, x.2.2.2.2))) := by
  constructor
  · intro c
    have : Nested.flat (L.flatMap fun x => .tok (.recordTupleValueBegin x.1 x.2.1 x.2.2.1) ::
        (x.2.2.2.1 ++ [.tok (.recordTupleValueEnd x.1 x.2.1 x.2.2.1)])) c =
        if c then (toksRT (L.map fun x => (x.1, x.2.1, x.2.2.1, x.2.2.2.2))).map computedTok
        else toksRT (L.map fun x => (x.1, x.2.1, x.2.2.1, x.2.2.2.2)) := by
      induction L with
      | nil => cases c <;> rfl
      | cons x L ih =>
        rw [List.flatMap_cons, Nested.flat_append, ih fun y hy => h y (.tail _ hy), Nested.flat_tok_cons, Nested.flat_append,
          (h x (.head _)).calls, Nested.flat_tok_cons]
        cases c <;> simp [toksRT, Serde.flat_nil, computedTok]
    rw [Nested.flat_tok_cons, Nested.flat_append, this, Nested.flat_tok_cons]
    cases c <;> simp [toks, Serde.flat_nil]
  · have := Shows.recordTuple m n (L.map fun x => (x.1, x.2.1, x.2.2.1, x.2.2.2.1, seen x.2.2.2.2))
      (fun y hy => by obtain ⟨x, hx, rfl⟩ := List.mem_map.mp hy; exact (h x hx).shows)
    have e : ∀ L : List (Option Tag × Label × Index × List Item × V),
        Nested.seenRT (L.map fun x => (x.1, x.2.1, x.2.2.1, x.2.2.2.2)) = L.map fun x => (x.1, x.2.1.toOwned, seen x.2.2.2.2) := by
      intro L
      induction L with
      | nil => rfl
      | cons x L ih => simp [Nested.seenRT, ih]
    simpa [seen, e, List.flatMap_map, Function.comp_def] using this

end Emits

end Sval
