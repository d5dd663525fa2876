import Verif.Core.Types

set_option autoImplicit false

/-!
# Value trees

`V` is the data model of sval (`src/stream.rs:6-454`, documentation of `Stream`): a well-formed
call sequence is the list of calls `toks v` of a tree `v`. Everything a call carries (size hints,
tags, labels, indexes, fragmentation, borrowed or computed) is kept, so nothing is normalised away.
-/

namespace Sval

/-- One fragment of text or binary: borrowed (`text_fragment`) or computed
(`text_fragment_computed`). -/
inductive Frag (α : Type) where
  | borrowed (s : α)
  | computed (s : α)
deriving DecidableEq, Repr

/-- The text or bytes of a fragment. -/
def Frag.content {α : Type} : Frag α → α
  | .borrowed s => s
  | .computed s => s

/-- A well-formed value. -/
inductive V where
  | null
  | bool (b : Bool)
  | int (t : IntTy) (v : Int)
  | f32 (bits : UInt32)
  | f64 (bits : UInt64)
  | text (n : Option Nat) (fs : List (Frag Text))
  | binary (n : Option Nat) (fs : List (Frag Bytes))
  | seq (n : Option Nat) (xs : List V)
  | map (n : Option Nat) (kvs : List (V × V))
  | tag (m : Meta)
  | tagged (m : Meta) (v : V)
  | enum (m : Meta) (v : V)
  | record (m : Meta) (n : Option Nat) (fs : List (Option Tag × Label × V))
  | tuple (m : Meta) (n : Option Nat) (fs : List (Option Tag × Index × V))
  | recordTuple (m : Meta) (n : Option Nat) (fs : List (Option Tag × Label × Index × V))
  | hint (t : Tag) (v : V)

/-- `text_fragment`, `text_fragment_computed`: `src/stream.rs:40-47` -/
def textFragTok : Frag Text → Token
  | .borrowed s => .textFragment s
  | .computed s => .textFragmentComputed s

/-- `binary_fragment`, `binary_fragment_computed`: `src/stream.rs:65-78` -/
def binFragTok : Frag Bytes → Token
  | .borrowed s => .binaryFragment s
  | .computed s => .binaryFragmentComputed s

mutual
/-- The calls a well-formed value makes. -/
def toks : V → List Token
  | .null => [.null]
  | .bool b => [.bool b]
  | .int t v => [.int t v]
  | .f32 b => [.f32 b]
  | .f64 b => [.f64 b]
  | .text n fs => .textBegin n :: (fs.map textFragTok ++ [.textEnd])
  | .binary n fs => .binaryBegin n :: (fs.map binFragTok ++ [.binaryEnd])
  | .seq n xs => .seqBegin n :: (toksSeq xs ++ [.seqEnd])
  | .map n kvs => .mapBegin n :: (toksMap kvs ++ [.mapEnd])
  | .tag m => [.tag m]
  | .tagged m v => .taggedBegin m :: (toks v ++ [.taggedEnd m])
  | .enum m v => .enumBegin m :: (toks v ++ [.enumEnd m])
  | .record m n fs => .recordBegin m n :: (toksRec fs ++ [.recordEnd m])
  | .tuple m n fs => .tupleBegin m n :: (toksTup fs ++ [.tupleEnd m])
  | .recordTuple m n fs => .recordTupleBegin m n :: (toksRT fs ++ [.recordTupleEnd m])
  | .hint t v => .tagHint t :: toks v
def toksSeq : List V → List Token
  | [] => []
  | x :: xs => .seqValueBegin :: (toks x ++ .seqValueEnd :: toksSeq xs)
def toksMap : List (V × V) → List Token
  | [] => []
  | (k, v) :: r =>
    .mapKeyBegin :: (toks k ++ .mapKeyEnd :: .mapValueBegin :: (toks v ++ .mapValueEnd :: toksMap r))
def toksRec : List (Option Tag × Label × V) → List Token
  | [] => []
  | (t, l, v) :: r => .recordValueBegin t l :: (toks v ++ .recordValueEnd t l :: toksRec r)
def toksTup : List (Option Tag × Index × V) → List Token
  | [] => []
  | (t, i, v) :: r => .tupleValueBegin t i :: (toks v ++ .tupleValueEnd t i :: toksTup r)
def toksRT : List (Option Tag × Label × Index × V) → List Token
  | [] => []
  | (t, l, i, v) :: r =>
    .recordTupleValueBegin t l i :: (toks v ++ .recordTupleValueEnd t l i :: toksRT r)
end

/-- Concatenated content of fragments. -/
def fragsText (fs : List (Frag Text)) : Text := (fs.map Frag.content).flatten
def fragsBytes (fs : List (Frag Bytes)) : Bytes := (fs.map Frag.content).flatten

mutual
/-- Induction over trees that also covers every list of children. -/
theorem V.ind {P : V → Prop}
    (null : P .null) (bool : ∀ b, P (.bool b)) (int : ∀ t v, P (.int t v))
    (f32 : ∀ b, P (.f32 b)) (f64 : ∀ b, P (.f64 b))
    (text : ∀ n fs, P (.text n fs)) (binary : ∀ n fs, P (.binary n fs))
    (seq : ∀ n xs, (∀ x ∈ xs, P x) → P (.seq n xs))
    (map : ∀ n kvs, (∀ kv ∈ kvs, P kv.1 ∧ P kv.2) → P (.map n kvs))
    (tag : ∀ m, P (.tag m))
    (tagged : ∀ m v, P v → P (.tagged m v))
    (enum : ∀ m v, P v → P (.enum m v))
    (record : ∀ m n fs, (∀ f ∈ fs, P f.2.2) → P (.record m n fs))
    (tuple : ∀ m n fs, (∀ f ∈ fs, P f.2.2) → P (.tuple m n fs))
    (recordTuple : ∀ m n fs, (∀ f ∈ fs, P f.2.2.2) → P (.recordTuple m n fs))
    (hint : ∀ t v, P v → P (.hint t v)) : ∀ v, P v
  | .null => null
  | .bool b => bool b
  | .int t v => int t v
  | .f32 b => f32 b
  | .f64 b => f64 b
  | .text n fs => text n fs
  | .binary n fs => binary n fs
  | .seq n xs => seq n xs
      (V.indSeq null bool int f32 f64 text binary seq map tag tagged enum record tuple recordTuple hint xs)
  | .map n kvs => map n kvs
      (V.indMap null bool int f32 f64 text binary seq map tag tagged enum record tuple recordTuple hint kvs)
  | .tag m => tag m
  | .tagged m v => tagged m v
      (V.ind null bool int f32 f64 text binary seq map tag tagged enum record tuple recordTuple hint v)
  | .enum m v => enum m v
      (V.ind null bool int f32 f64 text binary seq map tag tagged enum record tuple recordTuple hint v)
  | .record m n fs => record m n fs
      (V.indRec null bool int f32 f64 text binary seq map tag tagged enum record tuple recordTuple hint fs)
  | .tuple m n fs => tuple m n fs
      (V.indTup null bool int f32 f64 text binary seq map tag tagged enum record tuple recordTuple hint fs)
  | .recordTuple m n fs => recordTuple m n fs
      (V.indRT null bool int f32 f64 text binary seq map tag tagged enum record tuple recordTuple hint fs)
  | .hint t v => hint t v
      (V.ind null bool int f32 f64 text binary seq map tag tagged enum record tuple recordTuple hint v)
theorem V.indSeq {P : V → Prop}
    (null : P .null) (bool : ∀ b, P (.bool b)) (int : ∀ t v, P (.int t v))
    (f32 : ∀ b, P (.f32 b)) (f64 : ∀ b, P (.f64 b))
    (text : ∀ n fs, P (.text n fs)) (binary : ∀ n fs, P (.binary n fs))
    (seq : ∀ n xs, (∀ x ∈ xs, P x) → P (.seq n xs))
    (map : ∀ n kvs, (∀ kv ∈ kvs, P kv.1 ∧ P kv.2) → P (.map n kvs))
    (tag : ∀ m, P (.tag m))
    (tagged : ∀ m v, P v → P (.tagged m v))
    (enum : ∀ m v, P v → P (.enum m v))
    (record : ∀ m n fs, (∀ f ∈ fs, P f.2.2) → P (.record m n fs))
    (tuple : ∀ m n fs, (∀ f ∈ fs, P f.2.2) → P (.tuple m n fs))
    (recordTuple : ∀ m n fs, (∀ f ∈ fs, P f.2.2.2) → P (.recordTuple m n fs))
    (hint : ∀ t v, P v → P (.hint t v)) : ∀ xs : List V, ∀ x ∈ xs, P x
  | [] => by simp
  | x :: xs => by
      intro y hy
      rcases List.mem_cons.1 hy with h | h
      · rw [h]
        exact V.ind null bool int f32 f64 text binary seq map tag tagged enum record tuple recordTuple hint x
      · exact V.indSeq null bool int f32 f64 text binary seq map tag tagged enum record tuple recordTuple hint xs y h
theorem V.indMap {P : V → Prop}
    (null : P .null) (bool : ∀ b, P (.bool b)) (int : ∀ t v, P (.int t v))
    (f32 : ∀ b, P (.f32 b)) (f64 : ∀ b, P (.f64 b))
    (text : ∀ n fs, P (.text n fs)) (binary : ∀ n fs, P (.binary n fs))
    (seq : ∀ n xs, (∀ x ∈ xs, P x) → P (.seq n xs))
    (map : ∀ n kvs, (∀ kv ∈ kvs, P kv.1 ∧ P kv.2) → P (.map n kvs))
    (tag : ∀ m, P (.tag m))
    (tagged : ∀ m v, P v → P (.tagged m v))
    (enum : ∀ m v, P v → P (.enum m v))
    (record : ∀ m n fs, (∀ f ∈ fs, P f.2.2) → P (.record m n fs))
    (tuple : ∀ m n fs, (∀ f ∈ fs, P f.2.2) → P (.tuple m n fs))
    (recordTuple : ∀ m n fs, (∀ f ∈ fs, P f.2.2.2) → P (.recordTuple m n fs))
    (hint : ∀ t v, P v → P (.hint t v)) : ∀ xs : List (V × V), ∀ x ∈ xs, P x.1 ∧ P x.2
  | [] => by simp
  | (k, v) :: xs => by
      intro y hy
      rcases List.mem_cons.1 hy with h | h
      · rw [h]
        exact ⟨V.ind null bool int f32 f64 text binary seq map tag tagged enum record tuple recordTuple hint k,
          V.ind null bool int f32 f64 text binary seq map tag tagged enum record tuple recordTuple hint v⟩
      · exact V.indMap null bool int f32 f64 text binary seq map tag tagged enum record tuple recordTuple hint xs y h
theorem V.indRec {P : V → Prop}
    (null : P .null) (bool : ∀ b, P (.bool b)) (int : ∀ t v, P (.int t v))
    (f32 : ∀ b, P (.f32 b)) (f64 : ∀ b, P (.f64 b))
    (text : ∀ n fs, P (.text n fs)) (binary : ∀ n fs, P (.binary n fs))
    (seq : ∀ n xs, (∀ x ∈ xs, P x) → P (.seq n xs))
    (map : ∀ n kvs, (∀ kv ∈ kvs, P kv.1 ∧ P kv.2) → P (.map n kvs))
    (tag : ∀ m, P (.tag m))
    (tagged : ∀ m v, P v → P (.tagged m v))
    (enum : ∀ m v, P v → P (.enum m v))
    (record : ∀ m n fs, (∀ f ∈ fs, P f.2.2) → P (.record m n fs))
    (tuple : ∀ m n fs, (∀ f ∈ fs, P f.2.2) → P (.tuple m n fs))
    (recordTuple : ∀ m n fs, (∀ f ∈ fs, P f.2.2.2) → P (.recordTuple m n fs))
    (hint : ∀ t v, P v → P (.hint t v)) :
    ∀ xs : List (Option Tag × Label × V), ∀ x ∈ xs, P x.2.2
  | [] => by simp
  | (t, l, v) :: xs => by
      intro y hy
      rcases List.mem_cons.1 hy with h | h
      · rw [h]
        exact V.ind null bool int f32 f64 text binary seq map tag tagged enum record tuple recordTuple hint v
      · exact V.indRec null bool int f32 f64 text binary seq map tag tagged enum record tuple recordTuple hint xs y h
theorem V.indTup {P : V → Prop}
    (null : P .null) (bool : ∀ b, P (.bool b)) (int : ∀ t v, P (.int t v))
    (f32 : ∀ b, P (.f32 b)) (f64 : ∀ b, P (.f64 b))
    (text : ∀ n fs, P (.text n fs)) (binary : ∀ n fs, P (.binary n fs))
    (seq : ∀ n xs, (∀ x ∈ xs, P x) → P (.seq n xs))
    (map : ∀ n kvs, (∀ kv ∈ kvs, P kv.1 ∧ P kv.2) → P (.map n kvs))
    (tag : ∀ m, P (.tag m))
    (tagged : ∀ m v, P v → P (.tagged m v))
    (enum : ∀ m v, P v → P (.enum m v))
    (record : ∀ m n fs, (∀ f ∈ fs, P f.2.2) → P (.record m n fs))
    (tuple : ∀ m n fs, (∀ f ∈ fs, P f.2.2) → P (.tuple m n fs))
    (recordTuple : ∀ m n fs, (∀ f ∈ fs, P f.2.2.2) → P (.recordTuple m n fs))
    (hint : ∀ t v, P v → P (.hint t v)) :
    ∀ xs : List (Option Tag × Index × V), ∀ x ∈ xs, P x.2.2
  | [] => by simp
  | (t, l, v) :: xs => by
      intro y hy
      rcases List.mem_cons.1 hy with h | h
      · rw [h]
        exact V.ind null bool int f32 f64 text binary seq map tag tagged enum record tuple recordTuple hint v
      · exact V.indTup null bool int f32 f64 text binary seq map tag tagged enum record tuple recordTuple hint xs y h
theorem V.indRT {P : V → Prop}
    (null : P .null) (bool : ∀ b, P (.bool b)) (int : ∀ t v, P (.int t v))
    (f32 : ∀ b, P (.f32 b)) (f64 : ∀ b, P (.f64 b))
    (text : ∀ n fs, P (.text n fs)) (binary : ∀ n fs, P (.binary n fs))
    (seq : ∀ n xs, (∀ x ∈ xs, P x) → P (.seq n xs))
    (map : ∀ n kvs, (∀ kv ∈ kvs, P kv.1 ∧ P kv.2) → P (.map n kvs))
    (tag : ∀ m, P (.tag m))
    (tagged : ∀ m v, P v → P (.tagged m v))
    (enum : ∀ m v, P v → P (.enum m v))
    (record : ∀ m n fs, (∀ f ∈ fs, P f.2.2) → P (.record m n fs))
    (tuple : ∀ m n fs, (∀ f ∈ fs, P f.2.2) → P (.tuple m n fs))
    (recordTuple : ∀ m n fs, (∀ f ∈ fs, P f.2.2.2) → P (.recordTuple m n fs))
    (hint : ∀ t v, P v → P (.hint t v)) :
    ∀ xs : List (Option Tag × Label × Index × V), ∀ x ∈ xs, P x.2.2.2
  | [] => by simp
  | (t, l, i, v) :: xs => by
      intro y hy
      rcases List.mem_cons.1 hy with h | h
      · rw [h]
        exact V.ind null bool int f32 f64 text binary seq map tag tagged enum record tuple recordTuple hint v
      · exact V.indRT null bool int f32 f64 text binary seq map tag tagged enum record tuple recordTuple hint xs y h
end

end Sval
