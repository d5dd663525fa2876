import Verif.Serde.Run

set_option autoImplicit false

/-!
# serde to sval and back
-/

namespace Sval.Serde

open Nested (Arg Cb Item own Shows prog supported seen flat flat_append)

/-! ## Induction -/

/-- The values directly inside of a value. -/
def parts : SV → List SV
  | .some v | .newtypeStruct _ v | .newtypeVariant _ _ _ v => [v]
  | .seq _ xs | .tuple _ xs | .tupleStruct _ _ xs | .tupleVariant _ _ _ _ xs => xs
  | .map _ kvs => kvs.flatMap fun x => [x.1, x.2]
  | .struct _ _ fs | .structVariant _ _ _ _ fs => fs.map (·.2)
  | _ => []

theorem sizeOf_parts (v : SV) : ∀ w ∈ parts v, sizeOf w < sizeOf v := by
  intro w hw
  cases v <;> simp only [parts, List.mem_cons, List.not_mem_nil, or_false, List.mem_flatMap, List.mem_map] at hw
  case some v => subst hw; simp
  case newtypeStruct n v => subst hw; simp; omega
  case newtypeVariant v => subst hw; simp; omega
  case seq xs => have := List.sizeOf_lt_of_mem hw; simp; omega
  case tuple xs => have := List.sizeOf_lt_of_mem hw; simp; omega
  case tupleStruct xs => have := List.sizeOf_lt_of_mem hw; simp; omega
  case tupleVariant xs => have := List.sizeOf_lt_of_mem hw; simp; omega
  case map kvs =>
    obtain ⟨⟨k, x⟩, hx, rfl | rfl⟩ := hw <;>
    · have := List.sizeOf_lt_of_mem hx
      simp at this ⊢; omega
  case struct fs =>
    obtain ⟨⟨k, x⟩, hx, rfl⟩ := hw
    have := List.sizeOf_lt_of_mem hx
    simp at this ⊢; omega
  case structVariant fs =>
    obtain ⟨⟨k, x⟩, hx, rfl⟩ := hw
    have := List.sizeOf_lt_of_mem hx
    simp at this ⊢; omega

theorem SV.ind {P : SV → Prop} (h : ∀ v, (∀ w ∈ parts v, P w) → P v) (v : SV) : P v := by
  suffices ∀ n v, sizeOf v ≤ n → P v from this _ v (Nat.le_refl _)
  intro n
  induction n with
  | zero => intro v hv; cases v <;> simp at hv
  | succ n ih =>
    intro v hv
    refine h v fun w hw => ih w ?_
    have := sizeOf_parts v w hw
    omega

/-! ## The tree -/

theorem shows_elems (xs : List SV) (h : ∀ x ∈ xs, Shows (toValue x) (seen (tree x))) : ∃ L : List (List Item × V),
    toValueSeq xs = (L.flatMap fun x => .tok .seqValueBegin :: (x.1 ++ [.tok .seqValueEnd])) ∧
    Nested.seenSeq (trees xs) = L.map (·.2) ∧ ∀ x ∈ L, Shows x.1 x.2 := by
  induction xs with
  | nil => exact ⟨[], rfl, rfl, by simp⟩
  | cons x xs ih =>
    obtain ⟨L, h1, h2, h3⟩ := ih fun y hy => h y (.tail _ hy)
    refine ⟨([.comp (toValue x)], seen (tree x)) :: L, by simp [toValueSeq, h1], by simp [trees, Nested.seenSeq, h2], ?_⟩
    intro y hy
    rcases List.mem_cons.1 hy with rfl | hy
    · exact .comp _ _ (h x (.head _))
    · exact h3 y hy

theorem shows_entries (xs : List (SV × SV)) (h : ∀ x ∈ xs, Shows (toValue x.1) (seen (tree x.1)) ∧ Shows (toValue x.2) (seen (tree x.2))) :
    ∃ L : List ((List Item × V) × (List Item × V)),
    toValueMap xs = (L.flatMap fun x => .tok .mapKeyBegin :: (x.1.1 ++ [.tok .mapKeyEnd]) ++
      .tok .mapValueBegin :: (x.2.1 ++ [.tok .mapValueEnd])) ∧
    Nested.seenMap (treeMap xs) = (L.map fun x => (x.1.2, x.2.2)) ∧ (∀ x ∈ L, Shows x.1.1 x.1.2) ∧ ∀ x ∈ L, Shows x.2.1 x.2.2 := by
  induction xs with
  | nil => exact ⟨[], rfl, rfl, by simp⟩
  | cons x xs ih =>
    obtain ⟨L, h1, h2, h3, h4⟩ := ih fun y hy => h y (.tail _ hy)
    obtain ⟨k, v⟩ := x
    refine ⟨(([.comp (toValue k)], seen (tree k)), ([.comp (toValue v)], seen (tree v))) :: L, by simp [toValueMap, h1],
      by simp [treeMap, Nested.seenMap, h2], ?_, ?_⟩
    · intro y hy
      rcases List.mem_cons.1 hy with rfl | hy
      · exact .comp _ _ (h _ (.head _)).1
      · exact h3 y hy
    · intro y hy
      rcases List.mem_cons.1 hy with rfl | hy
      · exact .comp _ _ (h _ (.head _)).2
      · exact h4 y hy

theorem shows_tup (xs : List SV) (h : ∀ x ∈ xs, Shows (toValue x) (seen (tree x))) (i : Nat) :
    ∃ L : List (Option Tag × Index × List Item × V),
    toValueTup i xs = (L.flatMap fun x => .tok (.tupleValueBegin x.1 x.2.1) :: (x.2.2.1 ++ [.tok (.tupleValueEnd x.1 x.2.1)])) ∧
    Nested.seenTup (treeTup i xs) = (L.map fun x => (x.1, x.2.1, x.2.2.2)) ∧ ∀ x ∈ L, Shows x.2.2.1 x.2.2.2 := by
  induction xs generalizing i with
  | nil => exact ⟨[], rfl, rfl, by simp⟩
  | cons x xs ih =>
    obtain ⟨L, h1, h2, h3⟩ := ih (fun y hy => h y (.tail _ hy)) (i + 1)
    refine ⟨(none, idx i, [.comp (toValue x)], seen (tree x)) :: L, by simp [toValueTup, h1], by simp [treeTup, Nested.seenTup, h2, idx], ?_⟩
    intro y hy
    rcases List.mem_cons.1 hy with rfl | hy
    · exact .comp _ _ (h x (.head _))
    · exact h3 y hy

theorem shows_rec (xs : List (Text × SV)) (h : ∀ x ∈ xs, Shows (toValue x.2) (seen (tree x.2))) :
    ∃ L : List (Option Tag × Label × List Item × V),
    toValueRec xs = (L.flatMap fun x => .tok (.recordValueBegin x.1 x.2.1) :: (x.2.2.1 ++ [.tok (.recordValueEnd x.1 x.2.1)])) ∧
    Nested.seenRec (treeRec xs) = (L.map fun x => (x.1, x.2.1.toOwned, x.2.2.2)) ∧ ∀ x ∈ L, Shows x.2.2.1 x.2.2.2 := by
  induction xs with
  | nil => exact ⟨[], rfl, rfl, by simp⟩
  | cons x xs ih =>
    obtain ⟨L, h1, h2, h3⟩ := ih (fun y hy => h y (.tail _ hy))
    obtain ⟨k, x⟩ := x
    refine ⟨(none, .new k, [.comp (toValue x)], seen (tree x)) :: L, by simp [toValueRec, h1], by simp [treeRec, Nested.seenRec, h2], ?_⟩
    intro y hy
    rcases List.mem_cons.1 hy with rfl | hy
    · exact .comp _ _ (h _ (.head _))
    · exact h3 y hy

theorem shows_toValue (v : SV) : Shows (toValue v) (seen (tree v)) := by
  induction v using SV.ind with | h v ih => ?_
  cases v with
  | bool b => exact .comp _ _ (.bool b)
  | int t v => exact .comp _ _ (.int t v)
  | f32 b => exact .comp _ _ (.f32 b)
  | f64 b => exact .comp _ _ (.f64 b)
  | char c => exact .comp _ _ (.text _ [.computed [c]])
  | str s => exact .comp _ _ (.text _ [.borrowed s])
  | collectStr s =>
    refine .comp _ _ ?_
    have := Shows.text none (s.map Frag.computed)
    simpa [tree, seen, Nested.text, Function.comp_def, textFragTok] using this
  | bytes s => exact .comp _ _ (.binary _ [.borrowed s])
  | none => exact .comp _ _ (.tag _)
  | some v => exact .comp _ _ (.tagged _ [.val _] _ (.val _ _ (ih v (by simp [parts]))))
  | unit => exact .comp _ _ (.tag _)
  | unitStruct name => exact .tag _
  | unitVariant name i variant => exact .enum _ [_] _ (.tag _)
  | newtypeStruct name v => exact .tagged _ [.comp _] _ (.comp _ _ (ih v (by simp [parts])))
  | newtypeVariant name i variant v =>
    exact .enum _ [_, .comp _, _] _ (.tagged _ [.comp _] _ (.comp _ _ (ih v (by simp [parts]))))
  | seq n xs =>
    obtain ⟨L, h1, h2, h3⟩ := shows_elems xs (fun x hx => ih x hx)
    simp only [toValue, tree, seen, h1, h2]
    exact .seq n L h3
  | tuple n xs =>
    obtain ⟨L, h1, h2, h3⟩ := shows_tup xs (fun x hx => ih x hx) 0
    simp only [toValue, tree, seen, h1, h2]
    exact .tuple _ _ L h3
  | tupleStruct name n xs =>
    obtain ⟨L, h1, h2, h3⟩ := shows_tup xs (fun x hx => ih x hx) 0
    simp only [toValue, tree, seen, h1, h2]
    exact .tuple _ _ L h3
  | tupleVariant name i variant n xs =>
    obtain ⟨L, h1, h2, h3⟩ := shows_tup xs (fun x hx => ih x hx) 0
    simp only [toValue, tree, seen, h1, h2]
    have := Shows.enum (named name) _ _ (.tuple (variantMeta i variant) (some n) L h3)
    simpa using this
  | map n xs =>
    obtain ⟨L, h1, h2, h3, h4⟩ := shows_entries xs fun x hx =>
      ⟨ih _ (List.mem_flatMap.2 ⟨x, hx, by simp⟩), ih _ (List.mem_flatMap.2 ⟨x, hx, by simp⟩)⟩
    simp only [toValue, tree, seen, h1, h2]
    exact .map n L h3 h4
  | struct name n xs =>
    obtain ⟨L, h1, h2, h3⟩ := shows_rec xs (fun x hx => ih _ (List.mem_map.2 ⟨x, hx, rfl⟩))
    simp only [toValue, tree, seen, h1, h2]
    exact .record _ _ L h3
  | structVariant name i variant n xs =>
    obtain ⟨L, h1, h2, h3⟩ := shows_rec xs (fun x hx => ih _ (List.mem_map.2 ⟨x, hx, rfl⟩))
    simp only [toValue, tree, seen, h1, h2]
    have := Shows.enum (named name) _ _ (.record (variantMeta i variant) (some n) L h3)
    simpa using this

theorem supported_trees (xs : List SV) (h : ∀ x ∈ xs, supported (tree x) = true) : Nested.supportedSeq (trees xs) = true := by
  induction xs with
  | nil => rfl
  | cons x xs ih => simp [trees, Nested.supportedSeq, h x (.head _), ih fun y hy => h y (.tail _ hy)]

theorem supported_treeTup (xs : List SV) (h : ∀ x ∈ xs, supported (tree x) = true) (i : Nat) : Nested.supportedTup (treeTup i xs) = true := by
  induction xs generalizing i with
  | nil => rfl
  | cons x xs ih => simp [treeTup, Nested.supportedTup, h x (.head _), ih fun y hy => h y (.tail _ hy)]

theorem supported_treeMap (xs : List (SV × SV)) (h : ∀ x ∈ xs, supported (tree x.1) = true ∧ supported (tree x.2) = true) :
    Nested.supportedMap (treeMap xs) = true := by
  induction xs with
  | nil => rfl
  | cons x xs ih =>
    simp [treeMap, Nested.supportedMap, (h x (.head _)).1, (h x (.head _)).2, ih fun y hy => h y (.tail _ hy)]

theorem supported_treeRec (xs : List (Text × SV)) (h : ∀ x ∈ xs, supported (tree x.2) = true) : Nested.supportedRec (treeRec xs) = true := by
  induction xs with
  | nil => rfl
  | cons x xs ih => simp [treeRec, Nested.supportedRec, h x (.head _), ih fun y hy => h y (.tail _ hy)]

theorem supported_tree (v : SV) : supported (tree v) = true := by
  induction v using SV.ind with | h v ih => ?_
  cases v with
  | some v => exact ih v (by simp [parts])
  | newtypeStruct name v => exact ih v (by simp [parts])
  | newtypeVariant name i variant v => exact ih v (by simp [parts])
  | seq n xs => exact supported_trees xs ih
  | tuple n xs => exact supported_treeTup xs ih 0
  | tupleStruct name n xs => exact supported_treeTup xs ih 0
  | tupleVariant name i variant n xs => exact supported_treeTup xs ih 0
  | map n xs =>
    exact supported_treeMap xs fun x hx => ⟨ih _ (List.mem_flatMap.2 ⟨x, hx, by simp⟩), ih _ (List.mem_flatMap.2 ⟨x, hx, by simp⟩)⟩
  | struct name n xs => exact supported_treeRec xs fun x hx => ih _ (List.mem_map.2 ⟨x, hx, rfl⟩)
  | structVariant name i variant n xs => exact supported_treeRec xs fun x hx => ih _ (List.mem_map.2 ⟨x, hx, rfl⟩)
  | _ => rfl

/-! ## The calls of the tree -/

theorem flat_comp_cons (q r : List Item) (c : Bool) : flat (.comp q :: r) c = flat q true ++ flat r c := rfl
theorem flat_val_cons (q r : List Item) (c : Bool) : flat (.val q :: r) c = flat q c ++ flat r c := rfl
theorem flat_nil (c : Bool) : flat [] c = [] := rfl

theorem flat_toValueSeq (xs : List SV) (h : ∀ x ∈ xs, ∀ c, flat (toValue x) c = toks (tree x)) (c : Bool) :
    flat (toValueSeq xs) c = toksSeq (trees xs) := by
  induction xs with
  | nil => rfl
  | cons x xs ih =>
    have := ih fun y hy => h y (.tail _ hy)
    cases c <;> simp [toValueSeq, trees, toksSeq, Nested.flat_tok_cons, flat_comp_cons, this, h x (.head _), computedTok]

theorem flat_toValueTup (xs : List SV) (h : ∀ x ∈ xs, ∀ c, flat (toValue x) c = toks (tree x)) (c : Bool) (i : Nat) :
    flat (toValueTup i xs) c = toksTup (treeTup i xs) := by
  induction xs generalizing i with
  | nil => rfl
  | cons x xs ih =>
    have := ih (fun y hy => h y (.tail _ hy)) (i + 1)
    cases c <;> simp [toValueTup, treeTup, toksTup, Nested.flat_tok_cons, flat_comp_cons, this, h x (.head _), computedTok, idx]

theorem flat_toValueMap (xs : List (SV × SV)) (c : Bool)
    (h : ∀ x ∈ xs, (∀ c, flat (toValue x.1) c = toks (tree x.1)) ∧ ∀ c, flat (toValue x.2) c = toks (tree x.2)) :
    flat (toValueMap xs) c = toksMap (treeMap xs) := by
  induction xs with
  | nil => rfl
  | cons x xs ih =>
    have := ih fun y hy => h y (.tail _ hy)
    have h1 := (h x (.head _)).1
    have h2 := (h x (.head _)).2
    obtain ⟨k, v⟩ := x
    cases c <;> simp_all [toValueMap, treeMap, toksMap, Nested.flat_tok_cons, flat_comp_cons, computedTok]

theorem flat_toValueRec (xs : List (Text × SV)) (h : ∀ x ∈ xs, ∀ c, flat (toValue x.2) c = toks (tree x.2)) (c : Bool) :
    flat (toValueRec xs) c = toksRec (treeRec xs) := by
  induction xs with
  | nil => rfl
  | cons x xs ih =>
    have := ih fun y hy => h y (.tail _ hy)
    have h := h x (.head _)
    obtain ⟨k, x⟩ := x
    cases c <;> simp_all [toValueRec, treeRec, toksRec, Nested.flat_tok_cons, flat_comp_cons, computedTok]

theorem flat_toValue (v : SV) : ∀ c, flat (toValue v) c = toks (tree v) := by
  induction v using SV.ind with | h v ih => ?_
  intro c
  cases v with
  | collectStr s =>
    simp only [toValue, tree, toks, flat_comp_cons, Nested.flat_tok_cons, flat_append, flat_nil, List.append_nil, if_true, computedTok]
    congr 2
    induction s with
    | nil => rfl
    | cons x s ih' => simpa [flat, Item.flat, computedTok, textFragTok] using ih' (by simp [parts])
  | some v => simp [toValue, tree, toks, flat_comp_cons, flat_val_cons, Nested.flat_tok_cons, flat_nil, computedTok, ih v (by simp [parts])]; rfl
  | newtypeStruct name v =>
    cases c <;> simp [toValue, tree, toks, flat_comp_cons, Nested.flat_tok_cons, flat_nil, computedTok, ih v (by simp [parts])]
  | newtypeVariant name i variant v =>
    cases c <;> simp [toValue, tree, toks, flat_comp_cons, Nested.flat_tok_cons, flat_nil, computedTok, ih v (by simp [parts])]
  | seq n xs =>
    have := flat_toValueSeq xs (fun x hx => ih x hx) c
    cases c <;> simp [toValue, tree, toks, Nested.flat_tok_cons, flat_append, flat_nil, computedTok, this]
  | tuple n xs =>
    have := flat_toValueTup xs (fun x hx => ih x hx) c 0
    cases c <;> simp [toValue, tree, toks, Nested.flat_tok_cons, flat_append, flat_nil, computedTok, this]
  | tupleStruct name n xs =>
    have := flat_toValueTup xs (fun x hx => ih x hx) c 0
    cases c <;> simp [toValue, tree, toks, Nested.flat_tok_cons, flat_append, flat_nil, computedTok, this]
  | tupleVariant name i variant n xs =>
    have := flat_toValueTup xs (fun x hx => ih x hx) c 0
    cases c <;> simp [toValue, tree, toks, Nested.flat_tok_cons, flat_append, flat_nil, computedTok, this]
  | map n xs =>
    have := flat_toValueMap xs c fun x hx =>
      ⟨ih _ (List.mem_flatMap.2 ⟨x, hx, by simp⟩), ih _ (List.mem_flatMap.2 ⟨x, hx, by simp⟩)⟩
    cases c <;> simp [toValue, tree, toks, Nested.flat_tok_cons, flat_append, flat_nil, computedTok, this]
  | struct name n xs =>
    have := flat_toValueRec xs (fun x hx => ih _ (List.mem_map.2 ⟨x, hx, rfl⟩)) c
    cases c <;> simp [toValue, tree, toks, Nested.flat_tok_cons, flat_append, flat_nil, computedTok, this]
  | structVariant name i variant n xs =>
    have := flat_toValueRec xs (fun x hx => ih _ (List.mem_map.2 ⟨x, hx, rfl⟩)) c
    cases c <;> simp [toValue, tree, toks, Nested.flat_tok_cons, flat_append, flat_nil, computedTok, this]
  | _ => cases c <;> rfl

/-- Make calls until one fails. -/
def calls {σ : Type} (S : Token → σ → σ × Bool) : List Token → σ → σ × Bool
  | [], s => (s, true)
  | t :: ts, s => if (S t s).2 then calls S ts (S t s).1 else ((S t s).1, false)

theorem calls_append {σ : Type} (S : Token → σ → σ × Bool) (p q : List Token) (s : σ) :
    calls S (p ++ q) s = if (calls S p s).2 then calls S q (calls S p s).1 else calls S p s := by
  induction p generalizing s with
  | nil => simp [calls]
  | cons t p ih =>
    simp only [List.cons_append, calls]
    split
    · exact ih _
    · simp

mutual
theorem exec_calls_item {σ : Type} (S : Token → σ → σ × Bool) (i : Item) (k : Prog) (c : Bool) (s : σ) :
    exec S (i.prog k) (Nested.wrapper c) s =
      if (calls S (i.flat c) s).2 then exec S k (Nested.wrapper c) (calls S (i.flat c) s).1 else calls S (i.flat c) s := by
  match i with
  | .tok t =>
    simp only [Item.prog, exec, Nested.wrapper_tok, Item.flat, calls]
    cases h : (S (if c = true then computedTok t else t) s).2 <;> simp [exec]
  | .val q =>
    have e : (Nested.wrapper c).valueTarget = Nested.wrapper c := by cases c <;> rfl
    have e2 : (Item.val q).flat c = flat q c := rfl
    rw [e2]
    simp only [Item.prog, exec, e, exec_calls S q c s]
    rcases calls S (flat q c) s with ⟨s', _ | _⟩ <;> rfl
  | .comp q =>
    have e : (Nested.wrapper c).computedTarget = Nested.wrapper true := by cases c <;> rfl
    have e2 : (Item.comp q).flat c = flat q true := rfl
    rw [e2]
    simp only [Item.prog, exec, e, exec_calls S q true s]
    rcases calls S (flat q true) s with ⟨s', _ | _⟩ <;> rfl
theorem exec_calls {σ : Type} (S : Token → σ → σ × Bool) (q : List Item) (c : Bool) (s : σ) :
    exec S (prog q) (Nested.wrapper c) s = calls S (flat q c) s := by
  match q with
  | [] => simp [prog, exec, flat, calls]
  | i :: q =>
    rw [prog, exec_calls_item S i (prog q) c s, exec_calls S q c, flat, calls_append]
end

/-! ## The tree is serialized as before -/

variable {ε τ : Type} (custom : ε) (S : SCall ε τ → τ → Res ε τ)

theorem serV_seen (v : V) : serV custom S (seen v) = serV custom S v ∧
    ∀ name, serVariant custom S name (seen v) = serVariant custom S name v := by
  have ol : ∀ m : Meta, (own m).label = m.label.map Label.toOwned := fun _ => rfl
  have ot : ∀ m : Meta, (own m).tag = m.tag := fun _ => rfl
  induction v using V.ind with
  | null => exact ⟨rfl, fun _ => rfl⟩
  | bool b => exact ⟨rfl, fun _ => rfl⟩
  | int t v => exact ⟨rfl, fun _ => rfl⟩
  | f32 b => exact ⟨rfl, fun _ => rfl⟩
  | f64 b => exact ⟨rfl, fun _ => rfl⟩
  | text n fs => exact ⟨by simp [seen, Nested.text, serV, Frag.content], fun _ => rfl⟩
  | binary n fs => exact ⟨by simp [seen, Nested.binary, serV, Frag.content], fun _ => rfl⟩
  | tag m => exact ⟨by simp [seen, serV, staticName_own, ot], fun _ => by simp [seen, serVariant, variantOf_own]⟩
  | tagged m v ih => exact ⟨by simp [seen, serV, staticName_own, ot, ih], fun _ => by simp [seen, serVariant, variantOf_own, ih]⟩
  | enum m v ih => exact ⟨by simp [seen, serV, staticName_own, ih], fun _ => rfl⟩
  | hint t v ih => exact ⟨by simp [seen, serV, ih], fun _ => by simp [seen, serVariant, ih]⟩
  | seq n xs ih =>
    have : serVs custom S (Nested.seenSeq xs) = serVs custom S xs := by
      induction xs with
      | nil => rfl
      | cons x xs ih' => simp [Nested.seenSeq, serVs, (ih x (.head _)).1, ih' fun y hy => ih y (.tail _ hy)]
    exact ⟨by simp [seen, serV, this], fun _ => rfl⟩
  | map n xs ih =>
    have : serVMap custom S (Nested.seenMap xs) = serVMap custom S xs := by
      induction xs with
      | nil => rfl
      | cons x xs ih' =>
        simp [Nested.seenMap, serVMap, (ih x (.head _)).1.1, (ih x (.head _)).2.1, ih' fun y hy => ih y (.tail _ hy)]
    exact ⟨by simp [seen, serV, this], fun _ => rfl⟩
  | tuple m n xs ih =>
    have : ∀ k, serVTup custom S k (Nested.seenTup xs) = serVTup custom S k xs := by
      intro k
      induction xs with
      | nil => rfl
      | cons x xs ih' => simp [Nested.seenTup, serVTup, (ih x (.head _)).1, ih' fun y hy => ih y (.tail _ hy)]
    refine ⟨?_, fun _ => by simp [seen, serVariant, this, variantOf_own]⟩
    simp only [seen, serV, ol, this]
    cases n <;> cases m.label <;> simp [toOwned_static]
  | record m n xs ih =>
    have : ∀ k, serVRec custom S k (Nested.seenRec xs) = serVRec custom S k xs := by
      intro k
      induction xs with
      | nil => rfl
      | cons x xs ih' =>
        simp [Nested.seenRec, serVRec, (ih x (.head _)).1, ih' fun y hy => ih y (.tail _ hy), toOwned_static]
    refine ⟨?_, fun _ => by simp [seen, serVariant, this, variantOf_own]⟩
    simp only [seen, serV, ol, this]
    cases n <;> cases m.label <;> simp [toOwned_static]
  | recordTuple m n xs ih =>
    have : ∀ k, serVRec custom S k (Nested.seenRT xs) = serVRT custom S k xs := by
      intro k
      induction xs with
      | nil => rfl
      | cons x xs ih' =>
        simp [Nested.seenRT, serVRec, serVRT, (ih x (.head _)).1, ih' fun y hy => ih y (.tail _ hy), toOwned_static]
    refine ⟨?_, fun _ => by simp [seen, serVariant, this, variantOf_own]⟩
    simp only [seen, serV, ol, this]
    cases n <;> cases m.label <;> simp [toOwned_static]

/-- Deep enough, a value is serialized as its tree. -/
theorem serialize_value (v : V) (hv : supported v = true) :
    ∃ N, ∀ d ≥ N, ∀ s, serialize custom S d (valueOf v) s = serV custom S v s := by
  obtain ⟨N, hN⟩ := serialize_shows custom S (Nested.shows_toks v) (by rw [Nested.supported_seen]; exact hv)
  refine ⟨N, fun d hd s => ?_⟩
  have := hN d hd s
  rw [Nested.prog_toks] at this
  rw [valueOf, this, (serV_seen custom S v).1]

end Sval.Serde
