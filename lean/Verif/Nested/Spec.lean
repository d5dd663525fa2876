import Verif.Nested.Model

set_option autoImplicit false

/-!
# What a recursive stream should see

`Shows is v` says that code that does `is` shows the tree `v`: it makes the calls of `v`, or hands over a
value that does, for the whole or for any part. It is loose about what `sval_nested` is not meant to
keep: tag hints, the indexes of record tuples, fragments, borrowing. It is also loose about what
`sval_nested` fails to keep: the calls around the elements of a sequence.

`Matches R X v` says that the methods `X` are those that a recursive stream should see for `v`, where the
values in `v` are related to the arguments by `R`.
-/

namespace Sval.Nested

/-- A label is only kept as owned text. -/
def own (m : Meta) : Meta := { m with label := m.label.map Label.toOwned }

theorem own_own (m : Meta) : own (own m) = own m := by
  obtain ⟨t, l, i⟩ := m
  cases l with
  | none => rfl
  | some l =>
    simp only [own, Option.map_some, Label.toOwned]
    by_cases h : l.backing = .static <;> simp [h, Label.new, Label.newOwned]

theorem own_cloneMeta (m : Meta) : own (cloneMeta m) = own m := by
  obtain ⟨t, l, i⟩ := m
  cases l with
  | none => rfl
  | some l =>
    obtain ⟨s, b, g⟩ := l
    cases b <;> simp [own, cloneMeta, Label.toOwned, Label.clone, Label.new, Label.newOwned]

def text (s : Text) : V := .text none [.computed s]
def binary (s : Bytes) : V := .binary none [.computed s]

inductive Shows : List Item → V → Prop
  | null : Shows [.tok .null] .null
  | bool (b : Bool) : Shows [.tok (.bool b)] (.bool b)
  | int (t : IntTy) (v : Int) : Shows [.tok (.int t v)] (.int t v)
  | f32 (b : UInt32) : Shows [.tok (.f32 b)] (.f32 b)
  | f64 (b : UInt64) : Shows [.tok (.f64 b)] (.f64 b)
  | text (n : Option Nat) (fs : List (Frag Text)) :
    Shows (.tok (.textBegin n) :: (fs.map (Item.tok ∘ textFragTok) ++ [.tok .textEnd]))
      (text (fs.map Frag.content).flatten)
  | binary (n : Option Nat) (fs : List (Frag Bytes)) :
    Shows (.tok (.binaryBegin n) :: (fs.map (Item.tok ∘ binFragTok) ++ [.tok .binaryEnd]))
      (binary (fs.map Frag.content).flatten)
  | tag (m : Meta) : Shows [.tok (.tag m)] (.tag (own m))
  | seq (n : Option Nat) (L : List (List Item × V)) (h : ∀ x ∈ L, Shows x.1 x.2) :
    Shows (.tok (.seqBegin n) :: ((L.flatMap fun x => .tok .seqValueBegin :: (x.1 ++ [.tok .seqValueEnd])) ++
      [.tok .seqEnd])) (.seq n (L.map (·.2)))
  /-- without the calls around elements -/
  | bareSeq (n : Option Nat) (L : List (List Item × V)) (h : ∀ x ∈ L, Shows x.1 x.2) :
    Shows (.tok (.seqBegin n) :: ((L.flatMap fun x => x.1) ++ [.tok .seqEnd])) (.seq n (L.map (·.2)))
  | map (n : Option Nat) (L : List ((List Item × V) × (List Item × V)))
    (h1 : ∀ x ∈ L, Shows x.1.1 x.1.2) (h2 : ∀ x ∈ L, Shows x.2.1 x.2.2) :
    Shows (.tok (.mapBegin n) :: ((L.flatMap fun x =>
      .tok .mapKeyBegin :: (x.1.1 ++ [.tok .mapKeyEnd]) ++
      .tok .mapValueBegin :: (x.2.1 ++ [.tok .mapValueEnd])) ++ [.tok .mapEnd]))
      (.map n (L.map fun x => (x.1.2, x.2.2)))
  | tuple (m : Meta) (n : Option Nat) (L : List (Option Tag × Index × List Item × V))
    (h : ∀ x ∈ L, Shows x.2.2.1 x.2.2.2) :
    Shows (.tok (.tupleBegin m n) :: ((L.flatMap fun x =>
      .tok (.tupleValueBegin x.1 x.2.1) :: (x.2.2.1 ++ [.tok (.tupleValueEnd x.1 x.2.1)])) ++ [.tok (.tupleEnd m)]))
      (.tuple (own m) n (L.map fun x => (x.1, x.2.1, x.2.2.2)))
  | record (m : Meta) (n : Option Nat) (L : List (Option Tag × Label × List Item × V))
    (h : ∀ x ∈ L, Shows x.2.2.1 x.2.2.2) :
    Shows (.tok (.recordBegin m n) :: ((L.flatMap fun x =>
      .tok (.recordValueBegin x.1 x.2.1) :: (x.2.2.1 ++ [.tok (.recordValueEnd x.1 x.2.1)])) ++ [.tok (.recordEnd m)]))
      (.record (own m) n (L.map fun x => (x.1, x.2.1.toOwned, x.2.2.2)))
  | recordTuple (m : Meta) (n : Option Nat) (L : List (Option Tag × Label × Index × List Item × V))
    (h : ∀ x ∈ L, Shows x.2.2.2.1 x.2.2.2.2) :
    Shows (.tok (.recordTupleBegin m n) :: ((L.flatMap fun x =>
      .tok (.recordTupleValueBegin x.1 x.2.1 x.2.2.1) ::
        (x.2.2.2.1 ++ [.tok (.recordTupleValueEnd x.1 x.2.1 x.2.2.1)])) ++ [.tok (.recordTupleEnd m)]))
      (.record (own m) n (L.map fun x => (x.1, x.2.1.toOwned, x.2.2.2.2)))
  | tagged (m : Meta) (q : List Item) (v : V) (h : Shows q v) :
    Shows (.tok (.taggedBegin m) :: (q ++ [.tok (.taggedEnd m)])) (.tagged (own m) v)
  | enum (m : Meta) (q : List Item) (v : V) (h : Shows q v) :
    Shows (.tok (.enumBegin m) :: (q ++ [.tok (.enumEnd m)])) (.enum (own m) v)
  | hint (t : Tag) (q : List Item) (v : V) (h : Shows q v) : Shows (.tok (.tagHint t) :: q) v
  | val (q : List Item) (v : V) (h : Shows q v) : Shows [.val q] v
  | comp (q : List Item) (v : V) (h : Shows q v) : Shows [.comp q] v

mutual
/-- The tree that a recursive stream should see for a value. -/
def seen : V → V
  | .null => .null
  | .bool b => .bool b
  | .int t v => .int t v
  | .f32 b => .f32 b
  | .f64 b => .f64 b
  | .text _ fs => text (fs.map Frag.content).flatten
  | .binary _ fs => binary (fs.map Frag.content).flatten
  | .seq n xs => .seq n (seenSeq xs)
  | .map n kvs => .map n (seenMap kvs)
  | .tag m => .tag (own m)
  | .tagged m v => .tagged (own m) (seen v)
  | .enum m v => .enum (own m) (seen v)
  | .record m n fs => .record (own m) n (seenRec fs)
  | .tuple m n fs => .tuple (own m) n (seenTup fs)
  | .recordTuple m n fs => .record (own m) n (seenRT fs)
  | .hint _ v => seen v
def seenSeq : List V → List V
  | [] => []
  | x :: xs => seen x :: seenSeq xs
def seenMap : List (V × V) → List (V × V)
  | [] => []
  | (k, v) :: r => (seen k, seen v) :: seenMap r
def seenRec : List (Option Tag × Label × V) → List (Option Tag × Label × V)
  | [] => []
  | (t, l, v) :: r => (t, l.toOwned, seen v) :: seenRec r
def seenTup : List (Option Tag × Index × V) → List (Option Tag × Index × V)
  | [] => []
  | (t, i, v) :: r => (t, i, seen v) :: seenTup r
def seenRT : List (Option Tag × Label × Index × V) → List (Option Tag × Label × V)
  | [] => []
  | (t, l, _, v) :: r => (t, l.toOwned, seen v) :: seenRT r
end

/-- Can `v` be the variant of an enum, inside of another enum or not? -/
def variant (inner : Bool) : V → Bool
  | .tag _ => true
  | .tagged _ _ => true
  | .tuple _ _ _ | .record _ _ _ | .recordTuple _ _ _ => !inner
  | .enum _ v => variant true v
  | .hint _ v => variant inner v
  | _ => false

mutual
/-- Every enum holds a variant, and the variants of enums inside of enums are not tuples or records. -/
def supported : V → Bool
  | .seq _ xs => supportedSeq xs
  | .map _ kvs => supportedMap kvs
  | .tagged _ v => supported v
  | .enum _ v => variant false v && supported v
  | .record _ _ fs => supportedRec fs
  | .tuple _ _ fs => supportedTup fs
  | .recordTuple _ _ fs => supportedRT fs
  | .hint _ v => supported v
  | _ => true
def supportedSeq : List V → Bool
  | [] => true
  | x :: xs => supported x && supportedSeq xs
def supportedMap : List (V × V) → Bool
  | [] => true
  | (k, v) :: r => supported k && supported v && supportedMap r
def supportedRec : List (Option Tag × Label × V) → Bool
  | [] => true
  | (_, _, v) :: r => supported v && supportedRec r
def supportedTup : List (Option Tag × Index × V) → Bool
  | [] => true
  | (_, _, v) :: r => supported v && supportedTup r
def supportedRT : List (Option Tag × Label × Index × V) → Bool
  | [] => true
  | (_, _, _, v) :: r => supported v && supportedRT r
end

/-- The methods of an enum for its variant. -/
inductive Variant (R : Arg → V → Prop) : List Cb → V → Prop
  | tag (m : Meta) : Variant R [.variantTag m] (.tag (own m))
  | tagged (m : Meta) (a : Arg) (v : V) (h : R a v) : Variant R [.variantTagged (own m) a] (.tagged (own m) v)
  | tuple (m : Meta) (n : Option Nat) (L : List (Option Tag × Index × Arg × V)) (h : ∀ x ∈ L, R x.2.2.1 x.2.2.2) :
    Variant R (.variantTupleBegin m n :: ((L.map fun x => .tupleValue x.1 x.2.1 x.2.2.1) ++ [.tupleEnd]))
      (.tuple (own m) n (L.map fun x => (x.1, x.2.1, x.2.2.2)))
  | record (m : Meta) (n : Option Nat) (L : List (Option Tag × Label × Arg × V)) (h : ∀ x ∈ L, R x.2.2.1 x.2.2.2) :
    Variant R (.variantRecordBegin m n :: ((L.map fun x => .recordValue x.1 x.2.1 x.2.2.1) ++ [.recordEnd]))
      (.record (own m) n (L.map fun x => (x.1, x.2.1, x.2.2.2)))
  | nested (m : Meta) (X : List Cb) (v : V) (h : Variant R X v) :
    Variant R (.nestedBegin (own m) :: (X ++ [.nestedEnd (own m)])) (.enum (own m) v)

/-- The methods for a value that is not just handed on. -/
inductive Opened (R : Arg → V → Prop) : List Cb → V → Prop
  | null : Opened R [.scalar .null] .null
  | bool (b : Bool) : Opened R [.scalar (.bool b)] (.bool b)
  | int (t : IntTy) (v : Int) : Opened R [.scalar (.int t v)] (.int t v)
  | f32 (b : UInt32) : Opened R [.scalar (.f32 b)] (.f32 b)
  | f64 (b : UInt64) : Opened R [.scalar (.f64 b)] (.f64 b)
  | text (b : Bool) (s : Text) : Opened R [.text b s] (text s)
  | binary (b : Bool) (s : Bytes) : Opened R [.binary b s] (binary s)
  | tag (m : Meta) : Opened R [.tag m] (.tag (own m))
  | tagged (m : Meta) (a : Arg) (v : V) (h : R a v) : Opened R [.tagged m a] (.tagged (own m) v)
  | seq (n : Option Nat) (L : List (Arg × V)) (h : ∀ x ∈ L, R x.1 x.2) :
    Opened R (.seqBegin n :: ((L.map fun x => .seqValue x.1) ++ [.seqEnd])) (.seq n (L.map (·.2)))
  | map (n : Option Nat) (L : List ((Arg × V) × (Arg × V))) (h1 : ∀ x ∈ L, R x.1.1 x.1.2) (h2 : ∀ x ∈ L, R x.2.1 x.2.2) :
    Opened R (.mapBegin n :: ((L.flatMap fun x => [.mapKey x.1.1, .mapValue x.2.1]) ++ [.mapEnd]))
      (.map n (L.map fun x => (x.1.2, x.2.2)))
  | tuple (m : Meta) (n : Option Nat) (L : List (Option Tag × Index × Arg × V)) (h : ∀ x ∈ L, R x.2.2.1 x.2.2.2) :
    Opened R (.tupleBegin m n :: ((L.map fun x => .tupleValue x.1 x.2.1 x.2.2.1) ++ [.tupleEnd]))
      (.tuple (own m) n (L.map fun x => (x.1, x.2.1, x.2.2.2)))
  | record (m : Meta) (n : Option Nat) (L : List (Option Tag × Label × Arg × V)) (h : ∀ x ∈ L, R x.2.2.1 x.2.2.2) :
    Opened R (.recordBegin m n :: ((L.map fun x => .recordValue x.1 x.2.1 x.2.2.1) ++ [.recordEnd]))
      (.record (own m) n (L.map fun x => (x.1, x.2.1, x.2.2.2)))
  | enum (m : Meta) (X : List Cb) (v : V) (h : Variant R X v) : Opened R (.enumBegin m :: X) (.enum (own m) v)

/-- The methods for a value. -/
def Matches (R : Arg → V → Prop) (X : List Cb) (v : V) : Prop :=
  Opened R X v ∨ ∃ a, X = [.value a] ∧ R a v

/-- Call methods one after the other until one fails. -/
def runCb {σ : Type} (C : Cb → σ → Res Unit σ) : List Cb → σ → Res Unit σ
  | [], s => .ok s
  | c :: X, s => (C c s).bind (runCb C X)

/-- Streaming the value to any recursive stream calls the methods `X`, one after the other, until one
fails, and has the result of the last one. -/
def Makes (computed : Bool) (p : Prog) (X : List Cb) : Prop :=
  ∀ (σ : Type) (C : Cb → σ → Res Unit σ) (s : σ), stream C computed p s = (runCb C X s).outcome

/-- What a recursive stream sees if it looks into every value it is given, in the same way. -/
inductive Sees : Arg → V → Prop
  | mk (a : Arg) (X : List Cb) (v : V) (h : Makes (!a.borrowed) a.prog X) (hX : Opened Sees X v) : Sees a v
  | on (a b : Arg) (v : V) (h : Makes (!a.borrowed) a.prog [.value b]) (hb : Sees b v) : Sees a v

end Sval.Nested
