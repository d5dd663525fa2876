import Verif.Serde.Through
import Verif.Props.SerdeBack

set_option autoImplicit false

/-!
# C86: a value that went through serde

`ToValue::new(ToSerialize::new(v))`, as streams see it.
-/

namespace Sval.Serde

/-! ## Lemmas -/

theorem named_static (name : Text) : staticName (named name) = some name := rfl

theorem variantOf_variantMeta (i : UInt32) (v : Text) : variantOf (variantMeta i v) = some (i, v) := by
  refine variantOf_of rfl ?_
  rw [variantMeta, Option.bind_some]
  exact toU32_toNat i

theorem svsOf_trees (xs : List SV) (h : ∀ x ∈ xs, svOf (tree x) = some (asText x)) : svsOf (trees xs) = some (asTexts xs) := by
  induction xs with
  | nil => rfl
  | cons x xs ih => rw [trees, svsOf, asTexts, h x (.head _), ih fun y hy => h y (.tail _ hy)]; rfl

theorem svTup_treeTup (xs : List SV) (h : ∀ x ∈ xs, svOf (tree x) = some (asText x)) (i : Nat) :
    svTup (treeTup i xs) = some (asTexts xs) := by
  induction xs generalizing i with
  | nil => rfl
  | cons x xs ih => rw [treeTup, svTup, asTexts, h x (.head _), ih fun y hy => h y (.tail _ hy)]; rfl

theorem svMap_treeMap (xs : List (SV × SV)) (h : ∀ x ∈ xs, svOf (tree x.1) = some (asText x.1) ∧ svOf (tree x.2) = some (asText x.2)) :
    svMap (treeMap xs) = some (asTextMap xs) := by
  induction xs with
  | nil => rfl
  | cons x xs ih =>
    have h1 := h x (.head _)
    obtain ⟨k, v⟩ := x
    rw [treeMap, svMap, asTextMap, h1.1, h1.2, ih fun y hy => h y (.tail _ hy)]; rfl

theorem svRec_treeRec (xs : List (Text × SV)) (h : ∀ x ∈ xs, svOf (tree x.2) = some (asText x.2)) :
    svRec (treeRec xs) = some (asTextRec xs) := by
  induction xs with
  | nil => rfl
  | cons x xs ih =>
    have h1 := h x (.head _)
    obtain ⟨k, v⟩ := x
    rw [treeRec, svRec, asTextRec, h1, ih fun y hy => h y (.tail _ hy)]; rfl

theorem svOf_tree (x : SV) : svOf (tree x) = some (asText x) := by
  induction x using SV.ind with | h x ih => ?_
  cases x with
  | collectStr s =>
    have : Frag.content ∘ Frag.computed = (id : Text → Text) := rfl
    simp only [tree, svOf, asText, List.map_map, this, List.map_id]
  | char c => rfl
  | str s => simp [tree, svOf, asText, Frag.content]
  | bytes s => simp [tree, svOf, asText, Frag.content]
  | some v => rw [tree, svOf, if_pos (by rfl), ih v (by simp [parts])]; rfl
  | newtypeStruct name v =>
    rw [tree, svOf, if_neg (by simp [named]), named_static, ih v (by simp [parts])]; rfl
  | unitVariant name i variant => rw [tree, svOf, named_static, Option.bind_some, svVariant, variantOf_variantMeta]; rfl
  | newtypeVariant name i variant v =>
    rw [tree, svOf, named_static, Option.bind_some, svVariant, variantOf_variantMeta, ih v (by simp [parts])]; rfl
  | seq n xs => rw [tree, svOf, svsOf_trees xs ih]; rfl
  | tuple n xs => rw [tree, svOf, svTup_treeTup xs ih]; rfl
  | tupleStruct name n xs => rw [tree, svOf, svTup_treeTup xs ih]; rfl
  | tupleVariant name i variant n xs =>
    rw [tree, svOf, named_static, Option.bind_some, svVariant, variantOf_variantMeta, svTup_treeTup xs ih]; rfl
  | map n xs =>
    rw [tree, svOf, svMap_treeMap xs fun x hx => ⟨ih _ (List.mem_flatMap.2 ⟨x, hx, by simp⟩), ih _ (List.mem_flatMap.2 ⟨x, hx, by simp⟩)⟩]; rfl
  | struct name n xs => rw [tree, svOf, svRec_treeRec xs fun x hx => ih _ (List.mem_map.2 ⟨x, hx, rfl⟩)]; rfl
  | structVariant name i variant n xs =>
    rw [tree, svOf, named_static, Option.bind_some, svVariant, variantOf_variantMeta,
      svRec_treeRec xs fun x hx => ih _ (List.mem_map.2 ⟨x, hx, rfl⟩)]; rfl
  | _ => rfl

/-! ## What is left of a value

A specification, of its own: which value arrives. -/

/-- Of what is said about a value, the name is kept. -/
def nameOf (m : Meta) : Meta := { label := m.label.map fun l => .new l.text }

/-- Of what is said about a variant, the name and the index are kept. -/
def variantName (m : Meta) : Meta := { label := m.label.map (fun l => .new l.text), index := m.index.map fun i => { val := i.val } }

/-- Elements are numbered from zero. -/
def renumber (i : Nat) : List V → List (Option Tag × Index × V)
  | [] => []
  | v :: vs => (none, { val := i }, v) :: renumber (i + 1) vs

mutual
/-- The value that arrives, of one that serializers accept. -/
def after : V → V
  | .null => .tag (variant tags.RUST_OPTION_NONE (t! "None") 0)
  | .bool b => .bool b
  | .int t v => .int t v
  | .f32 b => .f32 b
  | .f64 b => .f64 b
  -- texts and bytes arrive in one piece, that is not borrowed
  | .text _ fs => .text (some (utf8Len (fs.map Frag.content).flatten)) [.computed (fs.map Frag.content).flatten]
  | .binary _ fs => .binary (some (fs.map Frag.content).flatten.length) [.computed (fs.map Frag.content).flatten]
  | .tag m =>
    if m.tag = some tags.RUST_OPTION_NONE then .tag (variant tags.RUST_OPTION_NONE (t! "None") 0)
    else if m.tag = some tags.RUST_UNIT then .tag unitMeta
    else .tag (nameOf m)
  | .tagged m v => .tagged (if m.tag = some tags.RUST_OPTION_SOME then variant tags.RUST_OPTION_SOME (t! "Some") 1 else nameOf m) (after v)
  | .seq len xs => .seq len (afters xs)
  | .map len kvs => .map len (afterMap kvs)
  | .tuple m len fs => .tuple (nameOf m) len (renumber 0 (afterTup fs))
  | .record m len fs =>
    -- serde has no records without a name
    if m.label.isNone then .tuple {} len (renumber 0 ((afterRec fs).map (·.2.2)))
    else .record (nameOf m) len (afterRec fs)
  | .recordTuple m len fs =>
    if m.label.isNone then .tuple {} len (renumber 0 ((afterRT fs).map (·.2.2)))
    -- and none with indexes
    else .record (nameOf m) len (afterRT fs)
  | .enum m v => .enum (nameOf m) (afterVariant v)
  | .hint _ v => after v
def afterVariant : V → V
  | .tag m => .tag (variantName m)
  | .tagged m v => .tagged (variantName m) (after v)
  | .tuple m len fs => .tuple (variantName m) len (renumber 0 (afterTup fs))
  | .record m len fs => .record (variantName m) len (afterRec fs)
  | .recordTuple m len fs => .record (variantName m) len (afterRT fs)
  | .hint _ v => afterVariant v
  -- not accepted
  | v => v
def afters : List V → List V
  | [] => []
  | x :: xs => after x :: afters xs
def afterMap : List (V × V) → List (V × V)
  | [] => []
  | (k, v) :: r => (after k, after v) :: afterMap r
def afterTup : List (Option Tag × Index × V) → List V
  | [] => []
  | (_, _, v) :: r => after v :: afterTup r
def afterRec : List (Option Tag × Label × V) → List (Option Tag × Label × V)
  | [] => []
  | (_, l, v) :: r => (none, .new l.text, after v) :: afterRec r
def afterRT : List (Option Tag × Label × Index × V) → List (Option Tag × Label × V)
  | [] => []
  | (_, l, _, v) :: r => (none, .new l.text, after v) :: afterRT r
end

theorem static_text {l : Label} {t : Text} (h : l.asStaticStr = some t) : l.text = t := by
  unfold Label.asStaticStr at h
  split at h <;> simp_all

theorem nameOf_of {m : Meta} {t : Text} (h : staticName m = some t) : named t = nameOf m := by
  obtain ⟨l, e1, e2⟩ := staticName_some h
  simp [named, nameOf, e1, e2]

theorem nameOf_label {m : Meta} {l : Label} {t : Text} (h : m.label = some l) (h' : l.asStaticStr = some t) : named t = nameOf m := by
  simp [named, nameOf, h, static_text h']

theorem toU32_val {i : Index} {u : UInt32} (h : toU32 i = some u) : (u.toNat : Int) = i.val := by
  unfold toU32 at h
  split at h
  · rename_i hi
    cases h
    rw [UInt32.toNat_ofNat_of_lt' (by simp [UInt32.size]; omega)]
    omega
  · cases h

theorem variantName_of {m : Meta} {w : UInt32 × Text} (h : variantOf m = some w) : variantMeta w.1 w.2 = variantName m := by
  unfold variantOf at h
  split at h
  · rename_i v i h1 h2
    cases h
    obtain ⟨l, e1, e2⟩ := staticName_some h1
    obtain ⟨j, e3, e4⟩ := Option.bind_eq_some_iff.mp h2
    simp [variantMeta, variantName, e1, e2, e3, toU32_val e4]
  · cases h

/-- What arrives is the value of the serde value. -/
def Arrives (v : V) : Prop :=
  (∀ x, svOf v = some x → tree x = after v) ∧ ∀ name x, svVariant name v = some x → tree x = .enum (named name) (afterVariant v)

theorem treeTup_renumber (ys : List SV) (i : Nat) : treeTup i ys = renumber i (ys.map tree) := by
  induction ys generalizing i with
  | nil => rfl
  | cons y ys ih => rw [treeTup, List.map_cons, renumber, ih]

theorem trees_afters (xs : List V) (h : ∀ x ∈ xs, Arrives x) (ys : List SV) (e : svsOf xs = some ys) : trees ys = afters xs := by
  induction xs generalizing ys with
  | nil => cases e; rfl
  | cons x xs ih =>
    obtain ⟨a, ys, e1, e2, rfl⟩ := consO_some e
    rw [trees, afters, (h x (.head _)).1 _ e1, ih (fun y hy => h y (.tail _ hy)) _ e2]

theorem treeMap_after (xs : List (V × V)) (h : ∀ x ∈ xs, Arrives x.1 ∧ Arrives x.2) (ys : List (SV × SV)) (e : svMap xs = some ys) :
    treeMap ys = afterMap xs := by
  induction xs generalizing ys with
  | nil => cases e; rfl
  | cons x xs ih =>
    obtain ⟨k, v⟩ := x
    obtain ⟨a, ys, e1, e2, rfl⟩ := consO_some e
    obtain ⟨a, b, e3, e4, rfl⟩ := bindMap_some e1
    rw [treeMap, afterMap, (h (k, v) (.head _)).1.1 _ e3, (h (k, v) (.head _)).2.1 _ e4, ih (fun y hy => h y (.tail _ hy)) _ e2]

theorem tree_afterTup (xs : List (Option Tag × Index × V)) (h : ∀ x ∈ xs, Arrives x.2.2) (ys : List SV) (e : svTup xs = some ys) :
    ys.map tree = afterTup xs := by
  induction xs generalizing ys with
  | nil => cases e; rfl
  | cons x xs ih =>
    obtain ⟨a, ys, e1, e2, rfl⟩ := consO_some e
    rw [List.map_cons, afterTup, (h x (.head _)).1 _ e1, ih (fun y hy => h y (.tail _ hy)) _ e2]

theorem tree_afterVals (xs : List (Option Tag × Label × V)) (h : ∀ x ∈ xs, Arrives x.2.2) (ys : List SV) (e : svVals xs = some ys) :
    ys.map tree = (afterRec xs).map (·.2.2) := by
  induction xs generalizing ys with
  | nil => cases e; rfl
  | cons x xs ih =>
    obtain ⟨a, ys, e1, e2, rfl⟩ := consO_some e
    rw [List.map_cons, afterRec, (h x (.head _)).1 _ e1, ih (fun y hy => h y (.tail _ hy)) _ e2, List.map_cons]

theorem tree_afterValsRT (xs : List (Option Tag × Label × Index × V)) (h : ∀ x ∈ xs, Arrives x.2.2.2) (ys : List SV) (e : svValsRT xs = some ys) :
    ys.map tree = (afterRT xs).map (·.2.2) := by
  induction xs generalizing ys with
  | nil => cases e; rfl
  | cons x xs ih =>
    obtain ⟨a, ys, e1, e2, rfl⟩ := consO_some e
    rw [List.map_cons, afterRT, (h x (.head _)).1 _ e1, ih (fun y hy => h y (.tail _ hy)) _ e2, List.map_cons]

theorem treeRec_after (xs : List (Option Tag × Label × V)) (h : ∀ x ∈ xs, Arrives x.2.2) (ys : List (Text × SV)) (e : svRec xs = some ys) :
    treeRec ys = afterRec xs := by
  induction xs generalizing ys with
  | nil => cases e; rfl
  | cons x xs ih =>
    obtain ⟨a, ys, e1, e2, rfl⟩ := consO_some e
    obtain ⟨a, b, e3, e4, rfl⟩ := bindMap_some e1
    rw [treeRec, afterRec, (h x (.head _)).1 _ e4, static_text e3, ih (fun y hy => h y (.tail _ hy)) _ e2]

theorem treeRec_afterRT (xs : List (Option Tag × Label × Index × V)) (h : ∀ x ∈ xs, Arrives x.2.2.2) (ys : List (Text × SV)) (e : svRT xs = some ys) :
    treeRec ys = afterRT xs := by
  induction xs generalizing ys with
  | nil => cases e; rfl
  | cons x xs ih =>
    obtain ⟨a, ys, e1, e2, rfl⟩ := consO_some e
    obtain ⟨a, b, e3, e4, rfl⟩ := bindMap_some e1
    rw [treeRec, afterRT, (h x (.head _)).1 _ e4, static_text e3, ih (fun y hy => h y (.tail _ hy)) _ e2]

theorem arrives (v : V) : Arrives v := by
  induction v using V.ind
  case null => exact ⟨fun x h => by cases h; rfl, nofun⟩
  case bool b => exact ⟨fun x h => by cases h; rfl, nofun⟩
  case int t v => exact ⟨fun x h => by cases h; rfl, nofun⟩
  case f32 b => exact ⟨fun x h => by cases h; rfl, nofun⟩
  case f64 b => exact ⟨fun x h => by cases h; rfl, nofun⟩
  case text n fs => exact ⟨fun x h => by cases h; rfl, nofun⟩
  case binary n fs => exact ⟨fun x h => by cases h; rfl, nofun⟩
  case seq n xs ih =>
    refine ⟨fun x h => ?_, nofun⟩
    obtain ⟨ys, e, rfl⟩ := Option.map_eq_some_iff.mp h
    rw [tree, after, trees_afters xs ih ys e]
  case map n xs ih =>
    refine ⟨fun x h => ?_, nofun⟩
    obtain ⟨ys, e, rfl⟩ := Option.map_eq_some_iff.mp h
    rw [tree, after, treeMap_after xs ih ys e]
  case tag m =>
    refine ⟨fun x h => ?_, fun name x h => ?_⟩
    · rw [svOf] at h
      rw [after]
      split at h
      · rename_i h1; cases h; rw [if_pos h1]; rfl
      · rename_i h1
        split at h
        · rename_i h2; cases h; rw [if_neg h1, if_pos h2]; rfl
        · rename_i h2
          obtain ⟨name, e, rfl⟩ := Option.map_eq_some_iff.mp h
          rw [if_neg h1, if_neg h2, tree, nameOf_of e]
    · obtain ⟨w, e, rfl⟩ := Option.map_eq_some_iff.mp h
      rw [tree, afterVariant, variantName_of e]
  case tagged m v ih =>
    refine ⟨fun x h => ?_, fun name x h => ?_⟩
    · rw [svOf] at h
      rw [after]
      split at h
      · rename_i h1
        obtain ⟨y, e, rfl⟩ := Option.map_eq_some_iff.mp h
        rw [if_pos h1, tree, ih.1 _ e]
      · rename_i h1
        obtain ⟨name, y, e1, e2, rfl⟩ := bindMap_some h
        rw [if_neg h1, tree, ih.1 _ e2, nameOf_of e1]
    · obtain ⟨w, y, e1, e2, rfl⟩ := bindMap_some h
      rw [tree, afterVariant, ih.1 _ e2, variantName_of e1]
  case enum m v ih =>
    refine ⟨fun x h => ?_, nofun⟩
    rw [svOf] at h
    obtain ⟨name, e, h⟩ := Option.bind_eq_some_iff.mp h
    rw [after, ih.2 _ _ h, nameOf_of e]
  case record m n fs ih =>
    refine ⟨fun x h => ?_, fun name x h => ?_⟩
    · rw [svOf] at h
      obtain ⟨len, rfl, h⟩ := Option.bind_eq_some_iff.mp h
      cases hl : m.label with
      | none =>
        simp only [hl] at h
        obtain ⟨ys, e, rfl⟩ := Option.map_eq_some_iff.mp h
        simp only [tree, after, hl, Option.isNone_none, if_true, treeTup_renumber, tree_afterVals fs ih ys e]
      | some l =>
        simp only [hl] at h
        obtain ⟨name, ys, e1, e2, rfl⟩ := bindMap_some h
        simp only [tree, after, hl, Option.isNone_some, Bool.false_eq_true, if_false, nameOf_label hl e1, treeRec_after fs ih ys e2]
    · obtain ⟨w, e, h⟩ := Option.bind_eq_some_iff.mp h
      obtain ⟨len, ys, rfl, e2, rfl⟩ := bindMap_some h
      rw [tree, afterVariant, variantName_of e, treeRec_after fs ih ys e2]
  case tuple m n fs ih =>
    refine ⟨fun x h => ?_, fun name x h => ?_⟩
    · rw [svOf] at h
      obtain ⟨len, rfl, h⟩ := Option.bind_eq_some_iff.mp h
      cases hl : m.label with
      | none =>
        simp only [hl] at h
        obtain ⟨ys, e, rfl⟩ := Option.map_eq_some_iff.mp h
        have : nameOf m = {} := by rw [nameOf, hl]; rfl
        simp only [tree, after, this, treeTup_renumber, tree_afterTup fs ih ys e]
      | some l =>
        simp only [hl] at h
        obtain ⟨name, ys, e1, e2, rfl⟩ := bindMap_some h
        simp only [tree, after, nameOf_label hl e1, treeTup_renumber, tree_afterTup fs ih ys e2]
    · obtain ⟨w, e, h⟩ := Option.bind_eq_some_iff.mp h
      obtain ⟨len, ys, rfl, e2, rfl⟩ := bindMap_some h
      rw [tree, afterVariant, variantName_of e, treeTup_renumber, tree_afterTup fs ih ys e2]
  case recordTuple m n fs ih =>
    refine ⟨fun x h => ?_, fun name x h => ?_⟩
    · rw [svOf] at h
      obtain ⟨len, rfl, h⟩ := Option.bind_eq_some_iff.mp h
      cases hl : m.label with
      | none =>
        simp only [hl] at h
        obtain ⟨ys, e, rfl⟩ := Option.map_eq_some_iff.mp h
        simp only [tree, after, hl, Option.isNone_none, if_true, treeTup_renumber, tree_afterValsRT fs ih ys e]
      | some l =>
        simp only [hl] at h
        obtain ⟨name, ys, e1, e2, rfl⟩ := bindMap_some h
        simp only [tree, after, hl, Option.isNone_some, Bool.false_eq_true, if_false, nameOf_label hl e1, treeRec_afterRT fs ih ys e2]
    · obtain ⟨w, e, h⟩ := Option.bind_eq_some_iff.mp h
      obtain ⟨len, ys, rfl, e2, rfl⟩ := bindMap_some h
      rw [tree, afterVariant, variantName_of e, treeRec_afterRT fs ih ys e2]
  case hint t v ih => exact ⟨fun x h => ih.1 x h, fun name x h => ih.2 name x h⟩

/-! ## Twice -/

theorem renumber_tup (vs : List V) (i : Nat) (h : ∀ v ∈ vs, after v = v) : afterTup (renumber i vs) = vs := by
  induction vs generalizing i with
  | nil => rfl
  | cons v vs ih => rw [renumber, afterTup, h v (.head _), ih (i + 1) fun x hx => h x (.tail _ hx)]

def Twice (v : V) : Prop := after (after v) = after v ∧ afterVariant (afterVariant v) = afterVariant v

theorem twice_all (xs : List V) (h : ∀ x ∈ xs, Twice x) : afters (afters xs) = afters xs := by
  induction xs with
  | nil => rfl
  | cons x xs ih => rw [afters, afters, (h x (.head _)).1, ih fun y hy => h y (.tail _ hy)]

theorem twice_map (xs : List (V × V)) (h : ∀ x ∈ xs, Twice x.1 ∧ Twice x.2) : afterMap (afterMap xs) = afterMap xs := by
  induction xs with
  | nil => rfl
  | cons x xs ih =>
    have h1 := h x (.head _)
    obtain ⟨k, v⟩ := x
    rw [afterMap, afterMap, h1.1.1, h1.2.1, ih fun y hy => h y (.tail _ hy)]

theorem twice_tup (xs : List (Option Tag × Index × V)) (h : ∀ x ∈ xs, Twice x.2.2) : ∀ v ∈ afterTup xs, after v = v := by
  induction xs with
  | nil => intro v hv; cases hv
  | cons x xs ih =>
    intro v hv
    rw [afterTup] at hv
    cases hv with
    | head => exact (h x (.head _)).1
    | tail _ hv => exact ih (fun y hy => h y (.tail _ hy)) v hv

theorem twice_rec (xs : List (Option Tag × Label × V)) (h : ∀ x ∈ xs, Twice x.2.2) :
    (∀ v ∈ (afterRec xs).map (·.2.2), after v = v) ∧ afterRec (afterRec xs) = afterRec xs := by
  induction xs with
  | nil => exact ⟨nofun, rfl⟩
  | cons x xs ih =>
    have h1 := (h x (.head _)).1
    have h2 := ih fun y hy => h y (.tail _ hy)
    obtain ⟨t, l, v⟩ := x
    refine ⟨fun w hw => ?_, ?_⟩
    · rw [afterRec, List.map_cons] at hw
      cases hw with
      | head => exact h1
      | tail _ hw => exact h2.1 w hw
    · rw [afterRec, afterRec, h2.2, h1]; rfl

theorem twice_rt (xs : List (Option Tag × Label × Index × V)) (h : ∀ x ∈ xs, Twice x.2.2.2) :
    (∀ v ∈ (afterRT xs).map (·.2.2), after v = v) ∧ afterRec (afterRT xs) = afterRT xs := by
  induction xs with
  | nil => exact ⟨nofun, rfl⟩
  | cons x xs ih =>
    have h1 := (h x (.head _)).1
    have h2 := ih fun y hy => h y (.tail _ hy)
    obtain ⟨t, l, i, v⟩ := x
    refine ⟨fun w hw => ?_, ?_⟩
    · rw [afterRT, List.map_cons] at hw
      cases hw with
      | head => exact h1
      | tail _ hw => exact h2.1 w hw
    · rw [afterRT, afterRec, h2.2, h1]; rfl

theorem nameOf_nameOf (m : Meta) : nameOf (nameOf m) = nameOf m := by
  cases h : m.label <;> simp [nameOf, h, Label.new]
theorem variantName_variantName (m : Meta) : variantName (variantName m) = variantName m := by
  cases h : m.label <;> cases h' : m.index <;> simp [variantName, h, h', Label.new]
theorem nameOf_isNone (m : Meta) : (nameOf m).label.isNone = m.label.isNone := by simp [nameOf]

theorem twice (v : V) : Twice v := by
  induction v using V.ind
  case null => exact ⟨rfl, rfl⟩
  case bool b => exact ⟨rfl, rfl⟩
  case int t v => exact ⟨rfl, rfl⟩
  case f32 b => exact ⟨rfl, rfl⟩
  case f64 b => exact ⟨rfl, rfl⟩
  case text n fs => exact ⟨by simp [after, Frag.content], rfl⟩
  case binary n fs => exact ⟨by simp [after, Frag.content], rfl⟩
  case seq n xs ih => exact ⟨by rw [after, after, twice_all xs ih], rfl⟩
  case map n xs ih => exact ⟨by rw [after, after, twice_map xs ih], rfl⟩
  case tag m =>
    refine ⟨?_, by rw [afterVariant, afterVariant, variantName_variantName]⟩
    rw [after]
    split
    · rfl
    · split
      · rfl
      · rw [after, if_neg (by simp [nameOf]), if_neg (by simp [nameOf]), nameOf_nameOf]
  case tagged m v ih =>
    refine ⟨?_, by rw [afterVariant, afterVariant, variantName_variantName, ih.1]⟩
    rw [after, after, ih.1]
    congr 1
    split
    · rfl
    · rw [if_neg (by simp [nameOf]), nameOf_nameOf]
  case enum m v ih => exact ⟨by rw [after, after, nameOf_nameOf, ih.2], rfl⟩
  case tuple m n fs ih =>
    exact ⟨by rw [after, after, nameOf_nameOf, renumber_tup _ _ (twice_tup fs ih)],
      by rw [afterVariant, afterVariant, variantName_variantName, renumber_tup _ _ (twice_tup fs ih)]⟩
  case record m n fs ih =>
    refine ⟨?_, by rw [afterVariant, afterVariant, variantName_variantName, (twice_rec fs ih).2]⟩
    rw [after]
    split
    · rw [after, renumber_tup _ _ (twice_rec fs ih).1]; rfl
    · rename_i h
      rw [after, nameOf_isNone, if_neg h, nameOf_nameOf, (twice_rec fs ih).2]
  case recordTuple m n fs ih =>
    refine ⟨?_, by rw [afterVariant, afterVariant, variantName_variantName, (twice_rt fs ih).2]⟩
    rw [after]
    split
    · rw [after, renumber_tup _ _ (twice_rt fs ih).1]; rfl
    · rename_i h
      rw [after, nameOf_isNone, if_neg h, nameOf_nameOf, (twice_rt fs ih).2]
  case hint t v ih => exact ⟨ih.1, ih.2⟩

/-! ## It accepts what it is given -/

section
variable {σ : Type} {S : Token → σ → σ × Bool} (hS : ∀ t s, (S t s).2 = true)
include hS

theorem always_emit (t : Token) : Always true (emit S t) := fun st => ⟨_, by rw [emit, if_pos (hS _ _)]⟩

theorem always_emits (ts : List Token) : Always true (emits S ts) := by
  induction ts with
  | nil => exact fun st => ⟨st, rfl⟩
  | cons t ts ih =>
    intro st
    obtain ⟨st', e⟩ := always_emit hS t st
    obtain ⟨st'', e'⟩ := ih st'
    exact ⟨st'', by rw [emits, e, Res.bind_ok, e']⟩

omit hS in
theorem always_within (w : Ser σ → Wrapper) {b : Bool} {a : Ser σ → Res Unit (Ser σ)} (h : Always b a) :
    Always b fun st => within (w st) a st := by
  cases b with
  | false =>
    intro st
    obtain ⟨e, st', h⟩ := h { s := st.s, w := w st }
    exact ⟨e, _, by simp only [within, h]; rfl⟩
  | true =>
    intro st
    obtain ⟨st', h⟩ := h { s := st.s, w := w st }
    exact ⟨_, by simp only [within, h]; rfl⟩

omit hS in
theorem always_bind {b b' : Bool} {f g : Ser σ → Res Unit (Ser σ)} (h : Always b f) (h' : Always b' g) :
    Always (b && b') fun st => (f st).bind g := by
  cases b with
  | false =>
    intro st
    obtain ⟨e, st', h⟩ := h st
    exact ⟨e, st', by simp only [h, Res.bind_err]⟩
  | true =>
    cases b' with
    | false =>
      intro st
      obtain ⟨st', h⟩ := h st
      obtain ⟨e, st'', h'⟩ := h' st'
      exact ⟨e, st'', by simp only [h, Res.bind_ok, h']⟩
    | true =>
      intro st
      obtain ⟨st', h⟩ := h st
      obtain ⟨st'', h'⟩ := h' st'
      exact ⟨st'', by simp only [h, Res.bind_ok, h']⟩

theorem always_around (t e : Token) {b : Bool} {a : Ser σ → Res Unit (Ser σ)} (h : Always b a) : Always b (around S t a e) := by
  have := always_bind (always_bind (always_emit hS t) (always_within (fun st => st.w.computedTarget) h)) (always_emit hS e)
  simp only [Bool.true_and, Bool.and_true] at this
  exact this

omit hS in
theorem always_set (g : Ser σ → Ser σ) : Always true fun st => (.ok (g st) : Res Unit (Ser σ)) := fun st => ⟨g st, rfl⟩

theorem always_tupleField {b : Bool} {a : Ser σ → Res Unit (Ser σ)} (h : Always b a) : Always b (tupleField S a) := by
  cases b with
  | false =>
    intro st
    obtain ⟨e, st', h⟩ := always_around hS (.tupleValueBegin none (idx st.frame.index)) (.tupleValueEnd none (idx st.frame.index)) h st
    exact ⟨e, st', by rw [tupleField, h]; rfl⟩
  | true =>
    intro st
    obtain ⟨st', h⟩ := always_around hS (.tupleValueBegin none (idx st.frame.index)) (.tupleValueEnd none (idx st.frame.index)) h st
    exact ⟨_, by rw [tupleField, h]; rfl⟩

theorem always_some {b : Bool} {a : Ser σ → Res Unit (Ser σ)} (h : Always b a) : Always b (stream S (.some a)) := by
  have := always_within (fun st : Ser σ => st.w.computedTarget)
    (always_bind (always_bind (always_emit hS (.taggedBegin someMeta)) (always_within (fun st => st.w.valueTarget) h)) (always_emit hS (.taggedEnd someMeta)))
  simp only [Bool.true_and, Bool.and_true] at this
  exact this

theorem always_arg {c : SCall Unit (Ser σ)} {a : Ser σ → Res Unit (Ser σ)} (hc : c.arg = some a) {b : Bool} (h : Always b a) :
    Always b (stream S c) := by
  cases c <;> simp only [SCall.arg, reduceCtorEq, Option.some.injEq] at hc <;> subst hc
  case some => exact always_some hS h
  case newtypeStruct => exact always_around hS _ _ h
  case newtypeVariant name i variant _ =>
    have := always_bind (always_bind (always_emit hS (.enumBegin (named name)))
      (always_around hS (.taggedBegin (variantMeta i variant)) (.taggedEnd (variantMeta i variant)) h)) (always_emit hS (.enumEnd (named name)))
    simp only [Bool.true_and, Bool.and_true] at this
    exact this
  case seqElement => exact always_around hS _ _ h
  case tupleElement => exact always_tupleField hS h
  case tupleStructField => exact always_tupleField hS h
  case tupleVariantField => exact always_tupleField hS h
  case mapKey => exact always_around hS _ _ h
  case mapValue => exact always_around hS _ _ h
  case structField => exact always_around hS _ _ h
  case structVariantField => exact always_around hS _ _ h

theorem always_set_after (g : Ser σ → List Token) (k : Ser σ → Ser σ) :
    Always true fun st => (emits S (g st) st).bind fun st => (.ok (k st) : Res Unit (Ser σ)) := by
  intro st
  obtain ⟨st', e⟩ := always_emits hS (g st) st
  exact ⟨k st', by simp only [e, Res.bind_ok]⟩

theorem always_call {c : SCall Unit (Ser σ)} (hc : c.arg = none) : Always true (stream S c) := by
  cases c <;> simp only [SCall.arg, reduceCtorEq] at hc
  case unitStruct => exact always_emits hS _
  case unitVariant => exact always_emits hS _
  case seq => exact always_set_after hS (fun _ => _) _
  case tuple => exact always_set_after hS (fun _ => _) _
  case tupleStruct => exact always_set_after hS (fun _ => _) _
  case tupleVariant => exact always_set_after hS (fun _ => _) _
  case map => exact always_set_after hS (fun _ => _) _
  case struct => exact always_set_after hS (fun _ => _) _
  case structVariant => exact always_set_after hS (fun _ => _) _
  case seqEnd => exact always_set_after hS (fun _ => _) _
  case mapEnd => exact always_set_after hS (fun _ => _) _
  case tupleEnd => exact always_set_after hS (fun st => [.tupleEnd st.frame.label]) _
  case tupleStructEnd => exact always_set_after hS (fun st => [.tupleEnd st.frame.label]) _
  case tupleVariantEnd => exact always_set_after hS (fun st => [.tupleEnd st.frame.label, .enumEnd st.frame.enum]) _
  case structEnd => exact always_set_after hS (fun st => [.recordEnd st.frame.label]) _
  case structVariantEnd => exact always_set_after hS (fun st => [.recordEnd st.frame.label, .enumEnd st.frame.enum]) _
  all_goals exact always_within (fun st => st.w.computedTarget) (always_emits hS _)

theorem stream_accepts : Accepts (stream S) := by
  intro c
  cases hc : c.arg with
  | none => exact always_call hS hc
  | some a => exact ⟨fun h => always_arg hS hc (b := true) h, fun h => always_arg hS hc (b := false) h⟩
end

end Sval.Serde

namespace Sval

open Serde
open Nested (prog supported)
open Json (Env J)

/-! ## C86 -/

/-- C86. `sval_serde`'s serializer streams whatever is serialized with it as the value that it stands for, `C35`. -/
theorem C86_serializer {σ : Type} (S : Token → σ → σ × Bool) (x : SV) (computed : Bool) (s : σ) :
    outcome (ser (stream S) x { s, w := if computed then .computed .base else .base }) =
      some (Sval.exec S (valueOf (tree x)) .base s) := by
  rw [show (if computed then Wrapper.computed .base else .base) = Nested.wrapper computed from rfl, outcome_ser, exec_toks]

/-- C86. A value that goes through serde and is accepted on the way arrives at any stream as `after v`. -/
theorem C86 {σ : Type} (S : Token → σ → σ × Bool) (v : V) (hv : serializable v = true) :
    ∃ N, ∀ d ≥ N, ∀ (computed : Bool) (s : σ),
      through S d (valueOf v) (if computed then .computed .base else .base) s = some (Sval.exec S (valueOf (after v)) .base s) := by
  obtain ⟨x, hx⟩ := (C79_iff v).1 hv
  obtain ⟨N, hN⟩ := C79_calls (stream S) v x hx
  refine ⟨N, fun d hd c s => ?_⟩
  rw [through, hN d hd, C86_serializer, (arrives v).1 x hx]

/-- C86. Other values fail, at any stream that does not fail itself. -/
theorem C86_refuses {σ : Type} (S : Token → σ → σ × Bool) (hS : ∀ t s, (S t s).2 = true) (v : V) (hv : supported v = true)
    (hv' : serializable v = false) : ∃ N, ∀ d ≥ N, ∀ w s, ∃ s', through S d (valueOf v) w s = some (s', false) := by
  obtain ⟨N, hN⟩ := C37_exact () (stream S) (stream_accepts hS) v hv hv'
  refine ⟨N, fun d hd w s => ?_⟩
  obtain ⟨e, st, h⟩ := hN d hd { s, w }
  exact ⟨st.s, by rw [through, h]; rfl⟩

/-- C86. It is accepted again, and nothing more is lost the second time. -/
theorem C86_again (v : V) (hv : serializable v = true) : serializable (after v) = true ∧ after (after v) = after v := by
  refine ⟨?_, (twice v).1⟩
  obtain ⟨x, hx⟩ := (C79_iff v).1 hv
  rw [← (arrives v).1 x hx]
  exact (C79_iff _).2 ⟨_, svOf_tree x⟩

/-- C86. The values that arrive unchanged are those that came from serde, and not from characters or from `collect_str`. -/
theorem C86_unchanged (v : V) : (serializable v = true ∧ after v = v) ↔ ∃ x, asText x = x ∧ v = tree x := by
  constructor
  · intro ⟨hv, h⟩
    obtain ⟨x, hx⟩ := (C79_iff v).1 hv
    have h1 := (arrives v).1 x hx
    rw [h] at h1
    refine ⟨x, ?_, h1.symm⟩
    have h2 := svOf_tree x
    rw [h1, hx] at h2
    exact (Option.some.inj h2).symm
  · rintro ⟨x, hx, rfl⟩
    have h := svOf_tree x
    rw [hx] at h
    exact ⟨(C79_iff _).2 ⟨_, h⟩, ((arrives _).1 x h).symm⟩

/-- What serializers get of a value of a Rust type: the calls of what the value shows. -/
theorem Rust.serialized {ε τ : Type} (custom : ε) (S : SCall ε τ → τ → Res ε τ) (x : Rust.RV) (hx : Rust.ok x) :
    ∃ N, ∀ d ≥ N, ∀ s, serialize custom S d (prog (Rust.items x)) s = serV custom S (Rust.tree x) s := by
  obtain ⟨N, hN⟩ := serialize_shows custom S (Rust.emits x hx).shows (by rw [Nested.supported_seen]; exact supported_tree x hx)
  exact ⟨N, fun d hd s => by rw [hN d hd s, (serV_seen custom S _).1]⟩

/-- C86 for the values of Rust types, accepted or not. -/
theorem C86_rust {σ : Type} (S : Token → σ → σ × Bool) (x : Rust.RV) (hx : Rust.ok x) : ∃ N, ∀ d ≥ N,
    (serializable (Rust.tree x) = true → ∀ (computed : Bool) (s : σ),
      through S d (prog (Rust.items x)) (if computed then .computed .base else .base) s =
        some (Sval.exec S (valueOf (after (Rust.tree x))) .base s)) ∧
    (serializable (Rust.tree x) = false → (∀ t s, (S t s).2 = true) → ∀ w s, ∃ s', through S d (prog (Rust.items x)) w s = some (s', false)) := by
  obtain ⟨N, hN⟩ := Rust.serialized () (stream S) x hx
  have hs := supported_tree x hx
  cases hv : serializable (Rust.tree x) with
  | true =>
    obtain ⟨M, hM⟩ := C37_calls () (stream S) _ hs
    obtain ⟨K, hK⟩ := C86 S _ hv
    refine ⟨max N (max M K), fun d hd => ⟨fun _ c s => ?_, by simp⟩⟩
    rw [← hK d (by omega) c s, through, through, hN d (by omega), hM d (by omega)]
  | false =>
    obtain ⟨M, hM⟩ := C37_calls () (stream S) _ hs
    refine ⟨max N M, fun d hd => ⟨by simp, fun _ hS w s => ?_⟩⟩
    obtain ⟨K, hK⟩ := C86_refuses S hS _ hs hv
    obtain ⟨s', h⟩ := hK (max K M) (by omega) w s
    refine ⟨s', ?_⟩
    rw [through, hM _ (by omega)] at h
    rw [through, hN d (by omega), h]

/-- C86, the JSON. Missing is what is missing in `C79_partial`. -/
theorem C86_json_partial (env : Env) (v : V) (j : J) (hv : serializable v = true) (ha : alike v = true)
    (hj : Json.value env v = some j) (hs : Json.safe v = true) :
    ∃ t, Json.toString env (valueOf (after v)) = some t ∧ Json.parse t = some j ∧ ∀ j', Json.Doc j' t → j' = j := by
  obtain ⟨x, hx⟩ := (C79_iff v).1 hv
  have := (C79_partial env v x j hx ha hj hs).2.2
  rwa [toString_serde, (arrives v).1 x hx] at this

/-! ## Examples -/

/-- A value with something in it that is lost: a record without a name, in a sequence, and `null`. -/
def lossyV : V :=
  .record { tag := some ⟨t! "mine"⟩, label := some (Label.new (t! "Order")) } (some 3)
    [(some ⟨t! "field"⟩, (Label.new (t! "id")).withTag tags.VALUE_IDENT, .hint tags.NUMBER (.text none [.borrowed (t! "1"), .computed (t! "2")])),
     (none, Label.new (t! "lines"), .seq none [.record {} (some 1) [(none, Label.new (t! "x"), .int .i32 1)]]),
     (none, Label.new (t! "notes"), .null)]

example : serializable lossyV = true ∧
    after lossyV = .record (named (t! "Order")) (some 3)
      [(none, .new (t! "id"), .text (some 2) [.computed (t! "12")]),
       (none, .new (t! "lines"), .seq none [.tuple {} (some 1) [(none, { val := 0 }, .int .i32 1)]]),
       (none, .new (t! "notes"), .tag noneMeta)] := ⟨by decide +kernel, rfl⟩

/-- C86. So a value need not arrive as it was. -/
theorem C86_fails : ∃ v, serializable v = true ∧ ∃ N, ∀ d ≥ N,
    through (recorder fun _ _ => true) d (valueOf v) .base [] = some ([.tag noneMeta], true) ∧
    Sval.exec (recorder fun _ _ => true) (valueOf v) .base [] = ([.null], true) := by
  obtain ⟨N, hN⟩ := C86 (recorder fun _ _ => true) .null rfl
  exact ⟨.null, rfl, N, fun d hd => ⟨(hN d hd false []).trans rfl, rfl⟩⟩

/-- The hypotheses of `C86_json_partial`, met. -/
example : serializable orderV = true ∧ alike orderV = true ∧ Json.safe orderV = true ∧ (Json.value anyEnv orderV).isSome = true :=
  ⟨by decide +kernel, rfl, rfl, rfl⟩

/-- The hypotheses of both parts of `C86_rust`, met: a vector of pairs, and an array. -/
example : let x : Rust.RV := .slice [.tuple [.str (t! "a"), .null], .tuple [.char 'é', .some (.int .u8 1)]]
    Rust.ok x ∧ serializable (Rust.tree x) = true ∧
    after (Rust.tree x) = .seq (some 2) [
      .tuple {} (some 2) [(none, { val := 0 }, .text (some 1) [.computed (t! "a")]), (none, { val := 1 }, .tag noneMeta)],
      .tuple {} (some 2) [(none, { val := 0 }, .text (some 2) [.computed (t! "é")]), (none, { val := 1 }, .tagged someMeta (.int .u8 1))]] :=
  ⟨by simp [Rust.ok, Rust.oks], rfl, rfl⟩

example : Rust.ok (.array [.int .u8 1]) ∧ serializable (Rust.tree (.array [.int .u8 1])) = false :=
  ⟨by simp [Rust.ok, Rust.oks], rfl⟩

/-- The hypotheses of `C86_refuses`, met. -/
example : supported arrayExample = true ∧ serializable arrayExample = false := by decide +kernel

/-- An optional variant with a tuple in it arrives unchanged. -/
example : serializable (tree (.some (.tupleVariant (t! "E") 2 (t! "V") 1 [.str (t! "x")]))) = true ∧
    after (tree (.some (.tupleVariant (t! "E") 2 (t! "V") 1 [.str (t! "x")]))) = tree (.some (.tupleVariant (t! "E") 2 (t! "V") 1 [.str (t! "x")])) :=
  (C86_unchanged _).2 ⟨_, rfl, rfl⟩

end Sval
