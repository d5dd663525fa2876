import Verif.Serde.Round
import Verif.Json.Text

set_option autoImplicit false

/-!
# The JSON that a serde value stands for

A specification: the externally tagged form that serde's data model has in JSON. `unit` says what a unit struct is.
-/

namespace Sval.Serde

open Json (J Env numOf consO pairO)

/-- A key: text, or something that is written like text. -/
def docKey (env : Env) : SV → Option Text
  | .bool b => some (if b then t! "true" else t! "false")
  | .int _ v => some (intDec v)
  | .f32 b => if f32Finite b then (numOf (env.f32 b)).map fun _ => env.f32 b else some (t! "null")
  | .f64 b => if f64Finite b then (numOf (env.f64 b)).map fun _ => env.f64 b else some (t! "null")
  | .char c => some [c]
  | .str s => some s
  | .collectStr s => some s.flatten
  | .none | .unit => some (t! "null")
  | .some v | .newtypeStruct _ v => docKey env v
  | .unitStruct name => some name
  | .unitVariant _ _ variant => some variant
  | _ => none

mutual
def doc (env : Env) (unit : Text → J) : SV → Option J
  | .bool b => some (.bool b)
  | .int _ v => some (.num v)
  | .f32 b => if f32Finite b then numOf (env.f32 b) else some .null
  | .f64 b => if f64Finite b then numOf (env.f64 b) else some .null
  | .char c => some (.str [c])
  | .str s => some (.str s)
  | .collectStr s => some (.str s.flatten)
  | .bytes s => some (.arr (s.map fun b => .num (b.toNat : Int)))
  | .none | .unit => some .null
  | .some v | .newtypeStruct _ v => doc env unit v
  | .unitStruct name => some (unit name)
  | .unitVariant _ _ variant => some (.str variant)
  | .newtypeVariant _ _ variant v => (doc env unit v).map fun j => .obj [(variant, j)]
  | .seq _ xs | .tuple _ xs | .tupleStruct _ _ xs => (docs env unit xs).map .arr
  | .tupleVariant _ _ variant _ xs => (docs env unit xs).map fun js => .obj [(variant, .arr js)]
  | .map _ kvs => (docMap env unit kvs).map .obj
  | .struct _ _ fs => (docRec env unit fs).map .obj
  | .structVariant _ _ variant _ fs => (docRec env unit fs).map fun js => .obj [(variant, .obj js)]
def docs (env : Env) (unit : Text → J) : List SV → Option (List J)
  | [] => some []
  | x :: xs => consO (doc env unit x) (docs env unit xs)
def docMap (env : Env) (unit : Text → J) : List (SV × SV) → Option (List (Text × J))
  | [] => some []
  | (k, v) :: r => consO (pairO (docKey env k) (doc env unit v)) (docMap env unit r)
def docRec (env : Env) (unit : Text → J) : List (Text × SV) → Option (List (Text × J))
  | [] => some []
  | (l, v) :: r => consO (pairO (some l) (doc env unit v)) (docRec env unit r)
end

/-- Does the value have a name of its own, or that of its enum or of `Some`? -/
def isNamed : SV → Bool
  | .some _ | .unitVariant .. | .newtypeStruct .. | .newtypeVariant .. | .tupleStruct .. | .tupleVariant .. | .struct ..
  | .structVariant .. => true
  | _ => false

mutual
/-- No map has an entry whose key and value both have a name. -/
def clear : SV → Bool
  | .some v | .newtypeStruct _ v | .newtypeVariant _ _ _ v => clear v
  | .seq _ xs | .tuple _ xs | .tupleStruct _ _ xs | .tupleVariant _ _ _ _ xs => clears xs
  | .map _ kvs => clearMap kvs
  | .struct _ _ fs | .structVariant _ _ _ _ fs => clearRec fs
  | _ => true
def clears : List SV → Bool
  | [] => true
  | x :: xs => clear x && clears xs
def clearMap : List (SV × SV) → Bool
  | [] => true
  | (k, v) :: r => clear v && !(isNamed k && isNamed v) && clearMap r
def clearRec : List (Text × SV) → Bool
  | [] => true
  | (_, v) :: r => clear v && clearRec r
end

theorem fragsText_computed (fs : List Text) : fragsText (fs.map Frag.computed) = fs.flatten := by
  simp only [fragsText, List.map_map]
  congr 1
  induction fs with
  | nil => rfl
  | cons f fs ih => simp only [List.map_cons, ih]; rfl

theorem fragsText_one (s : Text) : fragsText [Frag.computed s] = s := by
  rw [show [Frag.computed s] = [s].map Frag.computed from rfl, fragsText_computed]
  simp

theorem fragsBytes_one (s : Bytes) : fragsBytes [Frag.computed s] = s := by
  simp [fragsBytes, Frag.content]

theorem keyText_tree (env : Env) (v : SV) : Json.keyText env (tree v) = docKey env v := by
  induction v using SV.ind with
  | h v ih =>
    cases v <;> try rfl
    case str s => simp only [tree, Json.keyText, fragsText_one, docKey]
    case collectStr s => simp only [tree, Json.keyText, fragsText_computed, docKey]
    case some v => exact ih v (.head _)
    case newtypeStruct n v => exact ih v (.head _)

theorem safeKey_tree (v : SV) : Json.safeKey (tree v) = true := by
  induction v using SV.ind with
  | h v ih =>
    cases v <;> try rfl
    case some v => exact ih v (.head _)
    case newtypeStruct n v => exact ih v (.head _)
    case newtypeVariant n i w v => exact ih v (.head _)

theorem named_tree (v : SV) : Json.named (tree v) = isNamed v := by
  cases v <;> rfl

section
variable (env : Env)

theorem values_trees (xs : List SV) (h : ∀ x ∈ xs, Json.value env (tree x) = doc env .str x) :
    Json.values env (trees xs) = docs env .str xs := by
  induction xs with
  | nil => rfl
  | cons x xs ih => simp only [trees, Json.values, docs, h x (.head _), ih fun y hy => h y (.tail _ hy)]

theorem items_trees (xs : List SV) (h : ∀ x ∈ xs, Json.value env (tree x) = doc env .str x) (i : Nat) :
    Json.items env (treeTup i xs) = docs env .str xs := by
  induction xs generalizing i with
  | nil => rfl
  | cons x xs ih => simp only [treeTup, Json.items, docs, h x (.head _), ih fun y hy => h y (.tail _ hy)]

theorem entries_trees (xs : List (SV × SV)) (h : ∀ x ∈ xs, Json.value env (tree x.2) = doc env .str x.2) :
    Json.entries env (treeMap xs) = docMap env .str xs := by
  induction xs with
  | nil => rfl
  | cons x xs ih =>
    obtain ⟨k, v⟩ := x
    simp only [treeMap, Json.entries, docMap, keyText_tree, h (k, v) (.head _), ih fun y hy => h y (.tail _ hy)]

theorem fields_trees (xs : List (Text × SV)) (h : ∀ x ∈ xs, Json.value env (tree x.2) = doc env .str x.2) :
    Json.fields env (treeRec xs) = docRec env .str xs := by
  induction xs with
  | nil => rfl
  | cons x xs ih =>
    obtain ⟨k, v⟩ := x
    simp only [treeRec, Json.fields, docRec, h (k, v) (.head _), ih fun y hy => h y (.tail _ hy)]
    rfl

theorem value_tree (v : SV) : Json.value env (tree v) = doc env .str v := by
  induction v using SV.ind with
  | h v ih =>
    cases v <;> try rfl
    case str s => simp only [tree, Json.value, fragsText_one, doc]
    case collectStr s => simp only [tree, Json.value, fragsText_computed, doc]
    case bytes s => simp only [tree, Json.value, fragsBytes_one, doc]
    case some v => exact ih v (.head _)
    case newtypeStruct n v => exact ih v (.head _)
    case newtypeVariant n i w v =>
      have h : Json.value env (tree v) = doc env .str v := ih v (.head _)
      show (Json.value env (tree v)).map (Json.wrap (variantMeta i w)) = (doc env .str v).map _
      rw [h]; rfl
    case seq n xs => simp only [tree, Json.value, doc, values_trees env xs ih]
    case tuple n xs => simp only [tree, Json.value, doc, items_trees env xs ih]
    case tupleStruct m n xs => simp only [tree, Json.value, doc, items_trees env xs ih]
    case tupleVariant m i w n xs =>
      simp only [tree, Json.value, Json.variant, doc, items_trees env xs ih]
      rfl
    case map n xs =>
      rw [tree, Json.value, doc, entries_trees env xs fun x hx => ih x.2 (by
        simp only [parts, List.mem_flatMap]; exact ⟨x, hx, by simp⟩)]
    case struct m n xs =>
      rw [tree, Json.value, doc, fields_trees env xs fun x hx => ih x.2 (List.mem_map_of_mem hx)]
    case structVariant m i w n xs =>
      rw [tree, Json.value, Json.variant, doc, fields_trees env xs fun x hx => ih x.2 (List.mem_map_of_mem hx)]
      rfl
end

theorem safes_trees (xs : List SV) (h : ∀ x ∈ xs, Json.safe (tree x) = clear x) : Json.safes (trees xs) = clears xs := by
  induction xs with
  | nil => rfl
  | cons x xs ih => simp only [trees, Json.safes, clears, h x (.head _), ih fun y hy => h y (.tail _ hy)]

theorem safeItems_trees (xs : List SV) (h : ∀ x ∈ xs, Json.safe (tree x) = clear x) (i : Nat) :
    Json.safeItems (treeTup i xs) = clears xs := by
  induction xs generalizing i with
  | nil => rfl
  | cons x xs ih => simp only [treeTup, Json.safeItems, clears, h x (.head _), ih fun y hy => h y (.tail _ hy)]

theorem safeEntries_trees (xs : List (SV × SV)) (h : ∀ x ∈ xs, Json.safe (tree x.2) = clear x.2) :
    Json.safeEntries (treeMap xs) = clearMap xs := by
  induction xs with
  | nil => rfl
  | cons x xs ih =>
    obtain ⟨k, v⟩ := x
    simp only [treeMap, Json.safeEntries, clearMap, safeKey_tree, named_tree, h (k, v) (.head _),
      ih fun y hy => h y (.tail _ hy), Bool.true_and]

theorem safeFields_trees (xs : List (Text × SV)) (h : ∀ x ∈ xs, Json.safe (tree x.2) = clear x.2) :
    Json.safeFields (treeRec xs) = clearRec xs := by
  induction xs with
  | nil => rfl
  | cons x xs ih =>
    obtain ⟨k, v⟩ := x
    simp only [treeRec, Json.safeFields, clearRec, h (k, v) (.head _), ih fun y hy => h y (.tail _ hy)]

theorem safe_tree (v : SV) : Json.safe (tree v) = clear v := by
  induction v using SV.ind with
  | h v ih =>
    cases v <;> try rfl
    case some v => exact ih v (.head _)
    case newtypeStruct n v => exact ih v (.head _)
    case newtypeVariant n i w v => exact ih v (.head _)
    case seq n xs => simp only [tree, Json.safe, clear, safes_trees xs ih]
    case tuple n xs => simp only [tree, Json.safe, clear, safeItems_trees xs ih]
    case tupleStruct m n xs => simp only [tree, Json.safe, clear, safeItems_trees xs ih]
    case tupleVariant m i w n xs => simp only [tree, Json.safe, Json.safeVariant, clear, safeItems_trees xs ih]
    case map n xs =>
      rw [tree, Json.safe, clear, safeEntries_trees xs fun x hx => ih x.2 (by
        simp only [parts, List.mem_flatMap]; exact ⟨x, hx, by simp⟩)]
    case struct m n xs =>
      rw [tree, Json.safe, clear, safeFields_trees xs fun x hx => ih x.2 (List.mem_map_of_mem hx)]
    case structVariant m i w n xs =>
      rw [tree, Json.safe, Json.safeVariant, clear, safeFields_trees xs fun x hx => ih x.2 (List.mem_map_of_mem hx)]

end Sval.Serde
