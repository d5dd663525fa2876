import Verif.Buffer.Through
import Verif.Json.Norm

set_option autoImplicit false

/-!
# Places in values
-/

namespace Sval
open Buf

/-- A place in a value where a part of it can be: the part itself, what is tagged, a variant, an element, a key or value of a
map, a field. `pre` and `post` are the parts before and after it. -/
inductive Place where
  | here
  | tagged (m : Meta) (p : Place)
  | enum (m : Meta) (p : Place)
  | hint (t : Tag) (p : Place)
  | element (n : Option Nat) (pre : List V) (p : Place) (post : List V)
  | key (n : Option Nat) (pre : List (V × V)) (p : Place) (v : V) (post : List (V × V))
  | value (n : Option Nat) (pre : List (V × V)) (k : V) (p : Place) (post : List (V × V))
  | record (m : Meta) (n : Option Nat) (pre : List (Option Tag × Label × V)) (t : Option Tag) (l : Label) (p : Place)
    (post : List (Option Tag × Label × V))
  | tuple (m : Meta) (n : Option Nat) (pre : List (Option Tag × Index × V)) (t : Option Tag) (i : Index) (p : Place)
    (post : List (Option Tag × Index × V))
  | recordTuple (m : Meta) (n : Option Nat) (pre : List (Option Tag × Label × Index × V)) (t : Option Tag) (l : Label)
    (i : Index) (p : Place) (post : List (Option Tag × Label × Index × V))

namespace Place

/-- The value with `u` at the place. -/
def fill : Place → V → V
  | here, u => u
  | tagged m p, u => .tagged m (p.fill u)
  | enum m p, u => .enum m (p.fill u)
  | hint t p, u => .hint t (p.fill u)
  | element n pre p post, u => .seq n (pre ++ p.fill u :: post)
  | key n pre p v post, u => .map n (pre ++ (p.fill u, v) :: post)
  | value n pre k p post, u => .map n (pre ++ (k, p.fill u) :: post)
  | record m n pre t l p post, u => .record m n (pre ++ (t, l, p.fill u) :: post)
  | tuple m n pre t i p post, u => .tuple m n (pre ++ (t, i, p.fill u) :: post)
  | recordTuple m n pre t l i p post, u => .recordTuple m n (pre ++ (t, l, i, p.fill u) :: post)

/-- The calls before those of the part. -/
def before : Place → List Token
  | here => []
  | tagged m p => .taggedBegin m :: p.before
  | enum m p => .enumBegin m :: p.before
  | hint t p => .tagHint t :: p.before
  | element n pre p _ => .seqBegin n :: (toksSeq pre ++ .seqValueBegin :: p.before)
  | key n pre p _ _ => .mapBegin n :: (toksMap pre ++ .mapKeyBegin :: p.before)
  | value n pre k p _ => .mapBegin n :: (toksMap pre ++ .mapKeyBegin :: (toks k ++ .mapKeyEnd :: .mapValueBegin :: p.before))
  | record m n pre t l p _ => .recordBegin m n :: (toksRec pre ++ .recordValueBegin t l :: p.before)
  | tuple m n pre t i p _ => .tupleBegin m n :: (toksTup pre ++ .tupleValueBegin t i :: p.before)
  | recordTuple m n pre t l i p _ => .recordTupleBegin m n :: (toksRT pre ++ .recordTupleValueBegin t l i :: p.before)

/-- The calls after those of the part. -/
def after : Place → List Token
  | here => []
  | tagged m p => p.after ++ [.taggedEnd m]
  | enum m p => p.after ++ [.enumEnd m]
  | hint _ p => p.after
  | element _ _ p post => p.after ++ .seqValueEnd :: (toksSeq post ++ [.seqEnd])
  | key _ _ p v post => p.after ++ .mapKeyEnd :: .mapValueBegin :: (toks v ++ .mapValueEnd :: (toksMap post ++ [.mapEnd]))
  | value _ _ _ p post => p.after ++ .mapValueEnd :: (toksMap post ++ [.mapEnd])
  | record m _ _ t l p post => p.after ++ .recordValueEnd t l :: (toksRec post ++ [.recordEnd m])
  | tuple m _ _ t i p post => p.after ++ .tupleValueEnd t i :: (toksTup post ++ [.tupleEnd m])
  | recordTuple m _ _ t l i p post => p.after ++ .recordTupleValueEnd t l i :: (toksRT post ++ [.recordTupleEnd m])

theorem toksSeq_append (a b : List V) : toksSeq (a ++ b) = toksSeq a ++ toksSeq b := by
  induction a with
  | nil => rfl
  | cons x a ih => simp [toksSeq, ih]

theorem toksMap_append (a b : List (V × V)) : toksMap (a ++ b) = toksMap a ++ toksMap b := by
  induction a with
  | nil => rfl
  | cons x a ih => obtain ⟨k, v⟩ := x; simp [toksMap, ih]

theorem toksRec_append (a b : List (Option Tag × Label × V)) : toksRec (a ++ b) = toksRec a ++ toksRec b := by
  induction a with
  | nil => rfl
  | cons x a ih => obtain ⟨t, l, v⟩ := x; simp [toksRec, ih]

theorem toksTup_append (a b : List (Option Tag × Index × V)) : toksTup (a ++ b) = toksTup a ++ toksTup b := by
  induction a with
  | nil => rfl
  | cons x a ih => obtain ⟨t, l, v⟩ := x; simp [toksTup, ih]

theorem toksRT_append (a b : List (Option Tag × Label × Index × V)) : toksRT (a ++ b) = toksRT a ++ toksRT b := by
  induction a with
  | nil => rfl
  | cons x a ih => obtain ⟨t, l, i, v⟩ := x; simp [toksRT, ih]

theorem toks_fill (p : Place) (u : V) : toks (p.fill u) = p.before ++ toks u ++ p.after := by
  induction p <;> simp_all [fill, before, after, toks, toksSeq, toksMap, toksRec, toksTup, toksRT, toksSeq_append, toksMap_append,
    toksRec_append, toksTup_append, toksRT_append]

/-! ## Buffering -/

theorem normSeq_append (a b : List V) : normSeq (a ++ b) = normSeq a ++ normSeq b := by
  induction a with
  | nil => rfl
  | cons x a ih => simp [normSeq, ih]
theorem normMap_append (a b : List (V × V)) : normMap (a ++ b) = normMap a ++ normMap b := by
  induction a with
  | nil => rfl
  | cons x a ih => obtain ⟨k, v⟩ := x; simp [normMap, ih]
theorem normRec_append (a b : List (Option Tag × Label × V)) : normRec (a ++ b) = normRec a ++ normRec b := by
  induction a with
  | nil => rfl
  | cons x a ih => obtain ⟨t, l, v⟩ := x; simp [normRec, ih]
theorem normTup_append (a b : List (Option Tag × Index × V)) : normTup (a ++ b) = normTup a ++ normTup b := by
  induction a with
  | nil => rfl
  | cons x a ih => obtain ⟨t, l, v⟩ := x; simp [normTup, ih]
theorem normRT_append (a b : List (Option Tag × Label × Index × V)) : normRT (a ++ b) = normRT a ++ normRT b := by
  induction a with
  | nil => rfl
  | cons x a ih => obtain ⟨t, l, i, v⟩ := x; simp [normRT, ih]

theorem compSeq_append (a b : List V) : compSeq (a ++ b) = compSeq a ++ compSeq b := by
  induction a with
  | nil => rfl
  | cons x a ih => simp [compSeq, ih]
theorem compMap_append (a b : List (V × V)) : compMap (a ++ b) = compMap a ++ compMap b := by
  induction a with
  | nil => rfl
  | cons x a ih => obtain ⟨k, v⟩ := x; simp [compMap, ih]
theorem compRec_append (a b : List (Option Tag × Label × V)) : compRec (a ++ b) = compRec a ++ compRec b := by
  induction a with
  | nil => rfl
  | cons x a ih => obtain ⟨t, l, v⟩ := x; simp [compRec, ih]
theorem compTup_append (a b : List (Option Tag × Index × V)) : compTup (a ++ b) = compTup a ++ compTup b := by
  induction a with
  | nil => rfl
  | cons x a ih => obtain ⟨t, l, v⟩ := x; simp [compTup, ih]
theorem compRT_append (a b : List (Option Tag × Label × Index × V)) : compRT (a ++ b) = compRT a ++ compRT b := by
  induction a with
  | nil => rfl
  | cons x a ih => obtain ⟨t, l, i, v⟩ := x; simp [compRT, ih]

theorem norm_fill (p : Place) (u u' : V) (h : norm u = norm u') : norm (p.fill u) = norm (p.fill u') := by
  induction p <;> simp_all [fill, norm, normSeq, normMap, normRec, normTup, normRT, normSeq_append, normMap_append,
    normRec_append, normTup_append, normRT_append]

theorem key_fill (p : Place) (u u' : V) (h : comp (norm u) = comp (norm u')) :
    comp (norm (p.fill u)) = comp (norm (p.fill u')) := by
  induction p <;> simp_all [fill, norm, normSeq, normMap, normRec, normTup, normRT, normSeq_append, normMap_append,
    normRec_append, normTup_append, normRT_append, comp, compSeq, compMap, compRec, compTup, compRT, compSeq_append,
    compMap_append, compRec_append, compTup_append, compRT_append]

end Place

theorem comp_merged {α : Type} (fs fs' : List (Frag (List α))) (h : fs.map Frag.content = fs'.map Frag.content) :
    fragComp (mergedFrag fs) = fragComp (mergedFrag fs') := by
  have : ∀ f : Frag (List α), fragComp f = .computed f.content := fun f => by cases f <;> rfl
  rw [this, this, mergedFrag_content, mergedFrag_content, h]

theorem fragComp_content {α : Type} (fs : List (Frag (List α))) : (fs.map fragComp).map Frag.content = fs.map Frag.content := by
  rw [List.map_map]; exact List.map_congr_left fun f _ => by cases f <;> rfl

theorem key_comp (v : V) : comp (norm (comp v)) = comp (norm v) := by
  induction v using V.ind with
  | text n fs =>
    simp [comp, norm, fragsText, -List.map_map, fragComp_content, comp_merged _ _ (fragComp_content fs)]
  | binary n fs =>
    simp [comp, norm, fragsBytes, -List.map_map, fragComp_content, comp_merged _ _ (fragComp_content fs)]
  | seq n xs ih =>
    simp only [comp, norm]; congr 1
    induction xs with
    | nil => rfl
    | cons x xs ihx => simp [compSeq, normSeq, ih x (by simp), ihx fun y hy => ih y (by simp [hy])]
  | map n kvs ih =>
    simp only [comp, norm]; congr 1
    induction kvs with
    | nil => rfl
    | cons x xs ihx =>
      obtain ⟨k, v⟩ := x
      have h := ih (k, v) (by simp)
      simp [compMap, normMap, h.1, h.2, ihx fun y hy => ih y (by simp [hy])]
  | record m n fs ih =>
    simp only [comp, norm]; congr 1
    induction fs with
    | nil => rfl
    | cons x xs ihx =>
      obtain ⟨t, l, v⟩ := x
      simp [compRec, normRec, ih (t, l, v) (by simp), ihx fun y hy => ih y (by simp [hy])]
  | tuple m n fs ih =>
    simp only [comp, norm]; congr 1
    induction fs with
    | nil => rfl
    | cons x xs ihx =>
      obtain ⟨t, l, v⟩ := x
      simp [compTup, normTup, ih (t, l, v) (by simp), ihx fun y hy => ih y (by simp [hy])]
  | recordTuple m n fs ih =>
    simp only [comp, norm]; congr 1
    induction fs with
    | nil => rfl
    | cons x xs ihx =>
      obtain ⟨t, l, i, v⟩ := x
      simp [compRT, normRT, ih (t, l, i, v) (by simp), ihx fun y hy => ih y (by simp [hy])]
  | tagged m v ih => simp [comp, norm, ih]
  | enum m v ih => simp [comp, norm, ih]
  | hint t v ih => simp [comp, norm, ih]
  | _ => rfl

/-! ## `Json.steady` -/

namespace Place
open Json

theorem steadys_append (o : Bool) (a b : List V) : steadys o (a ++ b) = (steadys o a && steadys o b) := by
  induction a with
  | nil => rfl
  | cons x a ih => simp [steadys, ih, Bool.and_assoc]
theorem steadyKVs_append (o : Bool) (a b : List (V × V)) : steadyKVs o (a ++ b) = (steadyKVs o a && steadyKVs o b) := by
  induction a with
  | nil => rfl
  | cons x a ih => obtain ⟨k, v⟩ := x; simp [steadyKVs, ih, Bool.and_assoc]
theorem steadyRec_append (o : Bool) (a b : List (Option Tag × Label × V)) :
    steadyRec o (a ++ b) = (steadyRec o a && steadyRec o b) := by
  induction a with
  | nil => rfl
  | cons x a ih => obtain ⟨t, l, v⟩ := x; simp [steadyRec, ih, Bool.and_assoc]
theorem steadyTup_append (o : Bool) (a b : List (Option Tag × Index × V)) :
    steadyTup o (a ++ b) = (steadyTup o a && steadyTup o b) := by
  induction a with
  | nil => rfl
  | cons x a ih => obtain ⟨t, l, v⟩ := x; simp [steadyTup, ih, Bool.and_assoc]
theorem steadyRT_append (o : Bool) (a b : List (Option Tag × Label × Index × V)) :
    steadyRT o (a ++ b) = (steadyRT o a && steadyRT o b) := by
  induction a with
  | nil => rfl
  | cons x a ih => obtain ⟨t, l, i, v⟩ := x; simp [steadyRT, ih, Bool.and_assoc]

/-- What `steady` asks of a part. -/
structure Steadier (u u' : V) : Prop where
  steady : ∀ o, steady o u = true → steady o u' = true
  text : ∀ t, Json.textOf u = some t → Json.textOf u' = some t

theorem Steadier.number {u u' : V} (h : Steadier u u') (hu : numOk u = true) : numOk u' = true := by
  unfold numOk at *
  cases ht : Json.textOf u with
  | none => simp [ht] at hu
  | some t => rw [h.text t ht]; rw [ht] at hu; exact hu

theorem steady_fill (p : Place) {u u' : V} (h : Steadier u u') : Steadier (p.fill u) (p.fill u') := by
  induction p with
  | here => exact h
  | tagged m p ih =>
    refine ⟨fun o hs => ?_, fun t ht => by cases ht⟩
    simp only [fill, Json.steady, Bool.or_eq_true, Bool.and_eq_true] at hs ⊢
    exact hs.imp (fun ⟨h1, h2⟩ => ⟨h1, ih.number h2⟩) (ih.steady _)
  | hint t p ih => exact ⟨fun o hs => ih.steady o hs, fun t ht => ih.text t ht⟩
  | enum m p ih => exact ⟨fun o hs => ih.steady o hs, fun t ht => by cases ht⟩
  | element n pre p post ih =>
    refine ⟨fun o hs => ?_, fun t ht => by cases ht⟩
    simp only [fill, Json.steady, steadys_append, steadys, Bool.and_eq_true] at hs ⊢
    exact ⟨hs.1, ih.steady _ hs.2.1, hs.2.2⟩
  | key n pre p v post ih =>
    refine ⟨fun o hs => ?_, fun t ht => by cases ht⟩
    simp only [fill, Json.steady, steadyKVs_append, steadyKVs, Bool.and_eq_true] at hs ⊢
    exact ⟨hs.1, ⟨ih.steady _ hs.2.1.1, hs.2.1.2⟩, hs.2.2⟩
  | value n pre k p post ih =>
    refine ⟨fun o hs => ?_, fun t ht => by cases ht⟩
    simp only [fill, Json.steady, steadyKVs_append, steadyKVs, Bool.and_eq_true] at hs ⊢
    exact ⟨hs.1, ⟨hs.2.1.1, ih.steady _ hs.2.1.2⟩, hs.2.2⟩
  | record m n pre t l p post ih =>
    refine ⟨fun o hs => ?_, fun t ht => by cases ht⟩
    simp only [fill, Json.steady, steadyRec_append, steadyRec, Bool.and_eq_true] at hs ⊢
    exact ⟨hs.1, ⟨hs.2.1.1, ih.steady _ hs.2.1.2⟩, hs.2.2⟩
  | tuple m n pre t i p post ih =>
    refine ⟨fun o hs => ?_, fun t ht => by cases ht⟩
    simp only [fill, Json.steady, steadyTup_append, steadyTup, Bool.and_eq_true] at hs ⊢
    exact ⟨hs.1, ih.steady _ hs.2.1, hs.2.2⟩
  | recordTuple m n pre t l i p post ih =>
    refine ⟨fun o hs => ?_, fun t ht => by cases ht⟩
    simp only [fill, Json.steady, steadyRT_append, steadyRT, Bool.and_eq_true] at hs ⊢
    exact ⟨hs.1, ⟨hs.2.1.1, ih.steady _ hs.2.1.2⟩, hs.2.2⟩

theorem identOk_owned (l : Label) : identOk l.toOwned = true := by simp [identOk, Json.toOwned_tag]

theorem steady_norm (v : V) : Steadier v (norm v) := by
  refine ⟨fun o => ?_, textOf_norm v⟩
  induction v using V.ind generalizing o with
  | text n fs => intro _; simp [norm, Json.steady]
  | tagged m v ih =>
    intro hs
    simp only [norm, Json.steady, Bool.or_eq_true, Bool.and_eq_true, own_tag] at hs ⊢
    exact hs.imp (fun ⟨h1, h2⟩ => ⟨h1, Steadier.number ⟨ih, textOf_norm v⟩ h2⟩) (ih _)
  | seq n xs ih =>
    simp only [norm, Json.steady]
    induction xs with
    | nil => exact id
    | cons x xs ihx =>
      simp only [normSeq, steadys, Bool.and_eq_true]
      exact fun h => ⟨ih x (by simp) o h.1, ihx (fun y hy => ih y (by simp [hy])) h.2⟩
  | map n kvs ih =>
    simp only [norm, Json.steady]
    induction kvs with
    | nil => exact id
    | cons x xs ihx =>
      obtain ⟨k, v⟩ := x
      simp only [normMap, steadyKVs, Bool.and_eq_true]
      exact fun h => ⟨⟨(ih (k, v) (by simp)).1 o h.1.1, (ih (k, v) (by simp)).2 o h.1.2⟩, ihx (fun y hy => ih y (by simp [hy])) h.2⟩
  | record m n fs ih =>
    simp only [norm, Json.steady]
    induction fs with
    | nil => exact id
    | cons x xs ihx =>
      obtain ⟨t, l, v⟩ := x
      simp only [normRec, steadyRec, Bool.and_eq_true]
      exact fun h => ⟨⟨identOk_owned l, ih (t, l, v) (by simp) o h.1.2⟩, ihx (fun y hy => ih y (by simp [hy])) h.2⟩
  | tuple m n fs ih =>
    simp only [norm, Json.steady]
    induction fs with
    | nil => exact id
    | cons x xs ihx =>
      obtain ⟨t, l, v⟩ := x
      simp only [normTup, steadyTup, Bool.and_eq_true]
      exact fun h => ⟨ih (t, l, v) (by simp) o h.1, ihx (fun y hy => ih y (by simp [hy])) h.2⟩
  | recordTuple m n fs ih =>
    simp only [norm, Json.steady]
    induction fs with
    | nil => exact id
    | cons x xs ihx =>
      obtain ⟨t, l, i, v⟩ := x
      simp only [normRT, steadyRT, Bool.and_eq_true]
      exact fun h => ⟨⟨identOk_owned l, ih (t, l, i, v) (by simp) o h.1.2⟩, ihx (fun y hy => ih y (by simp [hy])) h.2⟩
  | enum m v ih => exact ih o
  | hint t v ih => exact ih o
  | _ => exact id

theorem steady_comp (v : V) : Steadier v (comp v) :=
  ⟨fun o h => by rw [Json.steady_comp]; exact h, fun t h => by rw [textOf_comp]; exact h⟩

theorem Steadier.trans {u v w : V} (h : Steadier u v) (h' : Steadier v w) : Steadier u w :=
  ⟨fun o hs => h'.steady o (h.steady o hs), fun t ht => h'.text t (h.text t ht)⟩

end Place

/-! ## The parts of a buffer -/

theorem enc_norm (v : V) : enc (norm v) = enc v := by
  induction v using V.ind with
  | text n fs => simp only [norm, enc, merged_single]
  | binary n fs => simp only [norm, enc, merged_single]
  | seq n xs ih =>
    have : encSeq (normSeq xs) = encSeq xs := by
      induction xs with
      | nil => rfl
      | cons x xs ihx => simp [normSeq, encSeq, ih x (by simp), ihx fun y hy => ih y (by simp [hy])]
    simp [norm, enc, this]
  | map n kvs ih =>
    have : encMap (normMap kvs) = encMap kvs := by
      induction kvs with
      | nil => rfl
      | cons x xs ihx =>
        obtain ⟨k, v⟩ := x
        have h := ih (k, v) (by simp)
        simp [normMap, encMap, h.1, h.2, ihx fun y hy => ih y (by simp [hy])]
    simp [norm, enc, this]
  | record m n fs ih =>
    have : encRec (normRec fs) = encRec fs := by
      induction fs with
      | nil => rfl
      | cons x xs ihx =>
        obtain ⟨t, l, v⟩ := x
        simp [normRec, encRec, toOwned_idem, ih (t, l, v) (by simp), ihx fun y hy => ih y (by simp [hy])]
    simp [norm, enc, own_idem, this]
  | tuple m n fs ih =>
    have : encTup (normTup fs) = encTup fs := by
      induction fs with
      | nil => rfl
      | cons x xs ihx =>
        obtain ⟨t, l, v⟩ := x
        simp [normTup, encTup, ih (t, l, v) (by simp), ihx fun y hy => ih y (by simp [hy])]
    simp [norm, enc, own_idem, this]
  | recordTuple m n fs ih =>
    have : encRT (normRT fs) = encRT fs := by
      induction fs with
      | nil => rfl
      | cons x xs ihx =>
        obtain ⟨t, l, i, v⟩ := x
        simp [normRT, encRT, toOwned_idem, ih (t, l, i, v) (by simp), ihx fun y hy => ih y (by simp [hy])]
    simp [norm, enc, own_idem, this]
  | tag m => simp [norm, enc, own_idem]
  | tagged m v ih => simp [norm, enc, own_idem, ih]
  | enum m v ih => simp [norm, enc, own_idem, ih]
  | hint t v ih => simp [norm, enc, ih]
  | _ => rfl

theorem enc_of_norm {v w : V} (h : norm v = norm w) : enc v = enc w := by rw [← enc_norm v, h, enc_norm]

end Sval
