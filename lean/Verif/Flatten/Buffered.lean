import Verif.Flatten.Labels
import Verif.Buffer.More

set_option autoImplicit false

/-!
# The entries of a buffered value
-/

namespace Sval.Flatten
open Sval Buf

/-- What a buffer makes of a value: `ValueBuf::collect`, or `ValueBuf::collect_owned`. -/
def asBuffered (owned : Bool) (v : V) : V := if owned then norm (comp v) else norm v

/-- An entry with everything in it buffered. -/
def Entry.buffered (owned : Bool) (e : Entry) : Entry :=
  { tag := e.tag, key := e.key.map (asBuffered owned), label := e.label.map Label.toOwned, index := e.index, val := asBuffered owned e.val }

theorem normSeq_eq (xs : List V) : normSeq xs = xs.map norm := by
  induction xs with
  | nil => rfl
  | cons x xs ih => simp [normSeq, ih]
theorem normMap_eq (xs : List (V × V)) : normMap xs = xs.map fun x => (norm x.1, norm x.2) := by
  induction xs with
  | nil => rfl
  | cons x xs ih => simp [normMap, ih]
theorem normRec_eq (xs : List (Option Tag × Label × V)) : normRec xs = xs.map fun x => (x.1, x.2.1.toOwned, norm x.2.2) := by
  induction xs with
  | nil => rfl
  | cons x xs ih => simp [normRec, ih]
theorem normTup_eq (xs : List (Option Tag × Index × V)) : normTup xs = xs.map fun x => (x.1, x.2.1, norm x.2.2) := by
  induction xs with
  | nil => rfl
  | cons x xs ih => simp [normTup, ih]
theorem normRT_eq (xs : List (Option Tag × Label × Index × V)) :
    normRT xs = xs.map fun x => (x.1, x.2.1.toOwned, x.2.2.1, norm x.2.2.2) := by
  induction xs with
  | nil => rfl
  | cons x xs ih => simp [normRT, ih]
theorem compSeq_eq (xs : List V) : compSeq xs = xs.map comp := by
  induction xs with
  | nil => rfl
  | cons x xs ih => simp [compSeq, ih]
theorem compMap_eq (xs : List (V × V)) : compMap xs = xs.map fun x => (comp x.1, comp x.2) := by
  induction xs with
  | nil => rfl
  | cons x xs ih => simp [compMap, ih]
theorem compRec_eq (xs : List (Option Tag × Label × V)) : compRec xs = xs.map fun x => (x.1, x.2.1, comp x.2.2) := by
  induction xs with
  | nil => rfl
  | cons x xs ih => simp [compRec, ih]
theorem compTup_eq (xs : List (Option Tag × Index × V)) : compTup xs = xs.map fun x => (x.1, x.2.1, comp x.2.2) := by
  induction xs with
  | nil => rfl
  | cons x xs ih => simp [compTup, ih]
theorem compRT_eq (xs : List (Option Tag × Label × Index × V)) :
    compRT xs = xs.map fun x => (x.1, x.2.1, x.2.2.1, comp x.2.2.2) := by
  induction xs with
  | nil => rfl
  | cons x xs ih => simp [compRT, ih]

theorem entries_kept (owned : Bool) (v : V) : entries (asBuffered owned v) = (entries v).map (Entry.buffered owned) ∧
    variantEntries (asBuffered owned v) = (variantEntries v).map (Entry.buffered owned) := by
  induction v using V.ind with
  | seq n xs _ => cases owned <;> simp [asBuffered, norm, comp, entries, variantEntries, normSeq_eq, compSeq_eq, Entry.buffered]
  | map n xs _ => cases owned <;> simp [asBuffered, norm, comp, entries, variantEntries, normMap_eq, compMap_eq, Entry.buffered]
  | record m n xs _ => cases owned <;> simp [asBuffered, norm, comp, entries, variantEntries, normRec_eq, compRec_eq, Entry.buffered]
  | tuple m n xs _ => cases owned <;> simp [asBuffered, norm, comp, entries, variantEntries, normTup_eq, compTup_eq, Entry.buffered]
  | recordTuple m n xs _ =>
    cases owned <;> simp [asBuffered, norm, comp, entries, variantEntries, normRT_eq, compRT_eq, Entry.buffered]
  | tagged m v ih =>
    cases owned <;> simp [asBuffered, norm, comp, entries, variantEntries, Entry.buffered, own] at ih ⊢ <;> exact ih.1
  | enum m v ih => cases owned <;> simp [asBuffered, norm, comp, entries, variantEntries] at ih ⊢ <;> exact ih.2
  | hint t v ih => cases owned <;> simp [asBuffered, norm, comp, entries, variantEntries] at ih ⊢ <;> exact ih
  | _ => cases owned <;> simp [asBuffered, norm, comp, entries, variantEntries]

theorem rootEnum_kept (owned : Bool) (v : V) : rootEnum (asBuffered owned v) = rootEnum v ∧ untaggedEnum (asBuffered owned v) = untaggedEnum v ∧
    enumTag (asBuffered owned v) = (enumTag v).map own ∧ enumTags (asBuffered owned v) = (enumTags v).map own := by
  induction v using V.ind with
  | tagged m v ih =>
    obtain ⟨h1, _, h3, h4⟩ := ih
    have hk : asBuffered owned (.tagged m v) = .tagged (own m) (asBuffered owned v) := by cases owned <;> rfl
    rw [hk]
    simp only [rootEnum, untaggedEnum, enumTag, enumTags, h1, h3, h4]
    refine ⟨trivial, trivial, ?_, ?_⟩
    · cases enumTag v <;> cases rootEnum v <;> rfl
    · cases rootEnum v <;> simp
  | hint t v ih => cases owned <;> simp [asBuffered, norm, comp, rootEnum, untaggedEnum, enumTag, enumTags] at ih ⊢ <;> exact ih
  | _ => cases owned <;> simp [asBuffered, norm, comp, rootEnum, untaggedEnum, enumTag, enumTags]

theorem number_map (f : Entry → Entry) (hf : ∀ e, (f e).index = e.index) (k c : Int) (es : List Entry) :
    number k c (es.map f) = ((number k c es).1.map fun x => (f x.1, x.2), (number k c es).2) := by
  have hp : ∀ c e, place k c (f e) = place k c e := fun c e => by unfold place; rw [hf]
  induction es generalizing c with
  | nil => rfl
  | cons e r ih => simp [number, hp, ih]

theorem inRange_map (f : Entry → Entry) (hf : ∀ e, (f e).index = e.index) (k c : Int) (es : List Entry) :
    inRange k c (es.map f) ↔ inRange k c es := by
  have hp : ∀ c e, place k c (f e) = place k c e := fun c e => by unfold place; rw [hf]
  induction es generalizing c with
  | nil => rfl
  | cons e r ih => simp [inRange, hp, ih, hf]

/-! ## Keys -/

/-- The second pieces are the first ones, with texts joined; `e` holds if nothing was joined to an empty text. -/
inductive Merges (e : Prop) : List Ev → List Ev → Prop
  | nil : Merges e [] []
  | num (t : Text) {r r' : List Ev} : Merges e r r' → Merges e (.num t :: r) (.num t :: r')
  | strs (ts : List Text) {r r' : List Ev} : (ts = [] → e) → Merges e r r' →
      Merges e (ts.map .str ++ r) (.str ts.flatten :: r')

namespace Merges
variable {e : Prop} {a a' b b' : List Ev}

theorem append (h : Merges e a a') (h' : Merges e b b') : Merges e (a ++ b) (a' ++ b') := by
  induction h with
  | nil => exact h'
  | num t _ ih => exact .num t ih
  | strs ts he _ ih => rw [List.append_assoc]; exact .strs ts he ih

theorem mono {f : Prop} (hf : e → f) (h : Merges e a a') : Merges f a a' := by
  induction h with
  | nil => exact .nil
  | num t _ ih => exact .num t ih
  | strs ts he _ ih => exact .strs ts (hf ∘ he) ih

theorem str (t : Text) (h : Merges e a a') : Merges e (.str t :: a) (.str t :: a') := by
  have := Merges.strs [t] (e := e) (by simp) h
  simpa using this

theorem hasNum (h : Merges e a a') : Flatten.hasNum a' = Flatten.hasNum a := by
  induction h with
  | nil => rfl
  | num t _ _ => simp [Flatten.hasNum, Ev.isNum]
  | strs ts _ _ ih =>
    simp only [Flatten.hasNum, List.any_cons, List.any_append, Ev.isNum, Bool.false_or] at ih ⊢
    rw [ih]
    simp [Ev.isNum]

theorem joined (h : Merges e a a') : Flatten.joined a' = Flatten.joined a := by
  induction h with
  | nil => rfl
  | num t _ ih => simpa [Flatten.joined, Ev.text] using ih
  | strs ts _ _ ih =>
    simp only [Flatten.joined, List.map_cons, List.flatten_cons, List.map_append, List.flatten_append, Ev.text] at ih ⊢
    rw [ih]
    simp [Function.comp_def, Ev.text]

theorem kept_strs (ts : List Text) (r : List Ev) :
    kept (ts.map .str ++ r) = if Flatten.hasNum r then kept r else ts.flatten ++ kept r := by
  induction ts with
  | nil => simp
  | cons t ts ih =>
    have : Flatten.hasNum (ts.map .str ++ r) = Flatten.hasNum r := by simp [Flatten.hasNum, Ev.isNum]
    simp only [List.map_cons, List.cons_append, kept, this, ih]
    split <;> simp

theorem kept_eq (h : Merges e a a') : kept a' = kept a ∨ (e ∧ kept a' = []) := by
  induction h with
  | nil => exact .inl rfl
  | @num t r r' h ih =>
    simp only [kept]
    by_cases hr' : r' = []
    · subst hr'
      cases h
      exact .inl rfl
    · rw [if_neg hr']
      by_cases hr : r = []
      · rw [if_pos hr]
        refine .inr ?_
        clear ih
        subst hr
        suffices ∀ r', Merges e [] r' → r' ≠ [] → e ∧ kept r' = [] from this r' h hr'
        intro r' h hr'
        generalize hr : ([] : List Ev) = r at h
        induction h with
        | nil => exact absurd rfl hr'
        | num => cases hr
        | @strs ts x x' he hx ih =>
          obtain ⟨h1, h2⟩ := List.append_eq_nil_iff.1 hr.symm
          have ht : ts = [] := by simpa using h1
          subst ht
          refine ⟨he rfl, ?_⟩
          simp only [kept, List.flatten_nil, List.nil_append, ite_self]
          by_cases hx' : x' = []
          · subst hx'; rfl
          · exact (ih hx' h2.symm).2
      · rw [if_neg hr]; exact ih
  | @strs ts r r' he h ih =>
    rw [kept_strs]
    simp only [kept, h.hasNum]
    split
    · exact ih
    · rcases ih with ih | ih
      · exact .inl (by rw [ih])
      · rename_i hn
        -- without numbers nothing is forgotten
        refine .inl ?_
        have hk : ∀ x : List Ev, Flatten.hasNum x ≠ true → kept x = Flatten.joined x := by
          intro x hx
          induction x with
          | nil => rfl
          | cons y x ihx =>
            cases y with
            | num t => simp [Flatten.hasNum, Ev.isNum] at hx
            | str t =>
              have hx' : Flatten.hasNum x ≠ true := by simpa [Flatten.hasNum, Ev.isNum] using hx
              rw [kept, if_neg hx', ihx hx']
              simp [Flatten.joined, Ev.text]
        rw [hk _ hn, hk _ (by rw [h.hasNum]; exact hn), h.joined]
end Merges

/-- Somewhere in a value is a text without fragments. -/
def hasVoid (v : V) : Prop := ∃ n, [Token.textBegin n, .textEnd] <:+: toks v

theorem hasVoid_mono {v w : V} (h : toks v <:+: toks w) : hasVoid v → hasVoid w := fun ⟨n, x⟩ => ⟨n, x.trans h⟩

theorem pieces_comp (ryu : UInt64 → Text) (v : V) : pieces ryu (comp v) = pieces ryu v := by
  induction v using V.ind with
  | text n fs =>
    simp only [comp, pieces, List.map_map]
    refine List.map_congr_left fun f _ => ?_
    cases f <;> rfl
  | binary n fs =>
    have : fragsBytes (fs.map fragComp) = fragsBytes fs := by
      simp only [fragsBytes, List.map_map]
      exact congrArg List.flatten (List.map_congr_left fun f _ => by cases f <;> rfl)
    simp only [comp, pieces, this]
  | seq n xs ih =>
    simp only [comp, pieces]
    induction xs with
    | nil => rfl
    | cons x xs ihx => simp only [compSeq, piecesSeq, ih x (by simp), ihx fun y hy => ih y (by simp [hy])]
  | map n xs ih =>
    simp only [comp, pieces]
    induction xs with
    | nil => rfl
    | cons x xs ihx =>
      simp only [compMap, piecesMap, (ih x (by simp)).1, (ih x (by simp)).2, ihx fun y hy => ih y (by simp [hy])]
  | record m n xs ih =>
    simp only [comp, pieces]
    induction xs with
    | nil => rfl
    | cons x xs ihx => simp only [compRec, piecesRec, ih x (by simp), ihx fun y hy => ih y (by simp [hy])]
  | tuple m n xs ih =>
    simp only [comp, pieces]
    induction xs with
    | nil => rfl
    | cons x xs ihx => simp only [compTup, piecesTup, ih x (by simp), ihx fun y hy => ih y (by simp [hy])]
  | recordTuple m n xs ih =>
    simp only [comp, pieces]
    induction xs with
    | nil => rfl
    | cons x xs ihx => simp only [compRT, piecesRT, ih x (by simp), ihx fun y hy => ih y (by simp [hy])]
  | tagged m v ih => simpa only [comp, pieces] using ih
  | enum m v ih => simpa only [comp, pieces] using ih
  | hint m v ih => simpa only [comp, pieces] using ih
  | _ => rfl

theorem Merges.refl (e : Prop) (a : List Ev) : Merges e a a := by
  induction a with
  | nil => exact .nil
  | cons x a ih =>
    cases x with
    | num t => exact .num t ih
    | str t => exact .str t ih

theorem toOwned_text' (l : Label) : l.toOwned.text = l.text := by
  unfold Label.toOwned
  split <;> rfl

theorem merges_seq (ryu : UInt64 → Text) (e : Prop) (xs : List V)
    (h : ∀ x ∈ xs, Merges (hasVoid x) (pieces ryu x) (pieces ryu (norm x)) ∧ (hasVoid x → e)) :
    Merges e (piecesSeq ryu xs) (piecesSeq ryu (normSeq xs)) := by
  induction xs with
  | nil => exact .nil
  | cons x xs ih =>
    exact ((h x (by simp)).1.mono (h x (by simp)).2).append (ih fun y hy => h y (by simp [hy]))
theorem merges_map (ryu : UInt64 → Text) (e : Prop) (xs : List (V × V))
    (h : ∀ x ∈ xs, (Merges (hasVoid x.1) (pieces ryu x.1) (pieces ryu (norm x.1)) ∧ (hasVoid x.1 → e)) ∧
      Merges (hasVoid x.2) (pieces ryu x.2) (pieces ryu (norm x.2)) ∧ (hasVoid x.2 → e)) :
    Merges e (piecesMap ryu xs) (piecesMap ryu (normMap xs)) := by
  induction xs with
  | nil => exact .nil
  | cons x xs ih =>
    exact ((h x (by simp)).1.1.mono (h x (by simp)).1.2).append
      (((h x (by simp)).2.1.mono (h x (by simp)).2.2).append (ih fun y hy => h y (by simp [hy])))
theorem merges_rec (ryu : UInt64 → Text) (e : Prop) (xs : List (Option Tag × Label × V))
    (h : ∀ x ∈ xs, Merges (hasVoid x.2.2) (pieces ryu x.2.2) (pieces ryu (norm x.2.2)) ∧ (hasVoid x.2.2 → e)) :
    Merges e (piecesRec ryu xs) (piecesRec ryu (normRec xs)) := by
  induction xs with
  | nil => exact .nil
  | cons x xs ih =>
    have := (((h x (by simp)).1.mono (h x (by simp)).2).append (ih fun y hy => h y (by simp [hy]))).str x.2.1.text
    simpa only [piecesRec, normRec, toOwned_text'] using this
theorem merges_tup (ryu : UInt64 → Text) (e : Prop) (xs : List (Option Tag × Index × V))
    (h : ∀ x ∈ xs, Merges (hasVoid x.2.2) (pieces ryu x.2.2) (pieces ryu (norm x.2.2)) ∧ (hasVoid x.2.2 → e)) :
    Merges e (piecesTup ryu xs) (piecesTup ryu (normTup xs)) := by
  induction xs with
  | nil => exact .nil
  | cons x xs ih =>
    exact ((h x (by simp)).1.mono (h x (by simp)).2).append (ih fun y hy => h y (by simp [hy]))
theorem merges_rt (ryu : UInt64 → Text) (e : Prop) (xs : List (Option Tag × Label × Index × V))
    (h : ∀ x ∈ xs, Merges (hasVoid x.2.2.2) (pieces ryu x.2.2.2) (pieces ryu (norm x.2.2.2)) ∧ (hasVoid x.2.2.2 → e)) :
    Merges e (piecesRT ryu xs) (piecesRT ryu (normRT xs)) := by
  induction xs with
  | nil => exact .nil
  | cons x xs ih =>
    have := (((h x (by simp)).1.mono (h x (by simp)).2).append (ih fun y hy => h y (by simp [hy]))).str x.2.1.text
    simpa only [piecesRT, normRT, toOwned_text'] using this

theorem infix_cons {a b c : List Token} (t u : Token) (h : a <:+: c) : a <:+: t :: (b ++ (u :: c)) := by
  obtain ⟨x, y, rfl⟩ := h
  exact ⟨t :: (b ++ (u :: x)), y, by simp⟩
theorem infix_head (t u : Token) (a b : List Token) : a <:+: t :: (a ++ (u :: b)) := ⟨[t], u :: b, by simp⟩

theorem infix_wrap (t u : Token) (a : List Token) : a <:+: t :: (a ++ [u]) := ⟨[t], [u], by simp⟩

theorem infix_seq {xs : List V} {x : V} (h : x ∈ xs) : toks x <:+: toksSeq xs := by
  induction xs with
  | nil => cases h
  | cons y xs ih =>
    rcases List.mem_cons.1 h with rfl | h
    · exact infix_head _ _ _ _
    · exact infix_cons _ _ (ih h)
theorem infix_map {xs : List (V × V)} {x : V × V} (h : x ∈ xs) : toks x.1 <:+: toksMap xs ∧ toks x.2 <:+: toksMap xs := by
  induction xs with
  | nil => cases h
  | cons y xs ih =>
    rcases List.mem_cons.1 h with rfl | h
    · exact ⟨infix_head _ _ _ _, infix_cons _ _ (infix_head _ _ _ _)⟩
    · exact ⟨infix_cons _ _ (infix_cons _ _ (ih h).1), infix_cons _ _ (infix_cons _ _ (ih h).2)⟩
theorem infix_rec {xs : List (Option Tag × Label × V)} {x : Option Tag × Label × V} (h : x ∈ xs) :
    toks x.2.2 <:+: toksRec xs := by
  induction xs with
  | nil => cases h
  | cons y xs ih =>
    rcases List.mem_cons.1 h with rfl | h
    · exact infix_head _ _ _ _
    · exact infix_cons _ _ (ih h)
theorem infix_tup {xs : List (Option Tag × Index × V)} {x : Option Tag × Index × V} (h : x ∈ xs) :
    toks x.2.2 <:+: toksTup xs := by
  induction xs with
  | nil => cases h
  | cons y xs ih =>
    rcases List.mem_cons.1 h with rfl | h
    · exact infix_head _ _ _ _
    · exact infix_cons _ _ (ih h)
theorem infix_rt {xs : List (Option Tag × Label × Index × V)} {x : Option Tag × Label × Index × V} (h : x ∈ xs) :
    toks x.2.2.2 <:+: toksRT xs := by
  induction xs with
  | nil => cases h
  | cons y xs ih =>
    rcases List.mem_cons.1 h with rfl | h
    · exact infix_head _ _ _ _
    · exact infix_cons _ _ (ih h)

theorem merges_norm (ryu : UInt64 → Text) (v : V) : Merges (hasVoid v) (pieces ryu v) (pieces ryu (norm v)) := by
  induction v using V.ind with
  | text n fs =>
    have := Merges.strs (e := hasVoid (.text n fs)) (fs.map Frag.content) (r := []) (r' := [])
      (fun h => ⟨n, by simp at h; subst h; exact ⟨[], [], by simp [toks]⟩⟩) .nil
    simpa [pieces, norm, mergedFrag_content, Function.comp_def] using this
  | binary n fs =>
    simp only [norm, pieces, fragsBytes_merged]
    exact .refl _ _
  | tag m =>
    obtain ⟨t, l, i⟩ := m
    have : tagPieces (own ⟨t, l, i⟩) = tagPieces ⟨t, l, i⟩ := by
      cases l <;> simp [own, tagPieces, toOwned_text']
    simp only [norm, pieces, this]
    exact .refl _ _
  | seq n xs ih =>
    simp only [norm, pieces]
    exact merges_seq ryu _ xs fun x hx => ⟨ih x hx, hasVoid_mono ((infix_seq hx).trans (infix_wrap _ _ _))⟩
  | map n xs ih =>
    simp only [norm, pieces]
    exact merges_map ryu _ xs fun x hx =>
      ⟨⟨(ih x hx).1, hasVoid_mono ((infix_map hx).1.trans (infix_wrap _ _ _))⟩,
        (ih x hx).2, hasVoid_mono ((infix_map hx).2.trans (infix_wrap _ _ _))⟩
  | record m n xs ih =>
    simp only [norm, pieces]
    exact merges_rec ryu _ xs fun x hx => ⟨ih x hx, hasVoid_mono ((infix_rec hx).trans (infix_wrap _ _ _))⟩
  | tuple m n xs ih =>
    simp only [norm, pieces]
    exact merges_tup ryu _ xs fun x hx => ⟨ih x hx, hasVoid_mono ((infix_tup hx).trans (infix_wrap _ _ _))⟩
  | recordTuple m n xs ih =>
    simp only [norm, pieces]
    exact merges_rt ryu _ xs fun x hx => ⟨ih x hx, hasVoid_mono ((infix_rt hx).trans (infix_wrap _ _ _))⟩
  | tagged m v ih => exact ih.mono (hasVoid_mono (infix_wrap _ _ _))
  | enum m v ih => exact ih.mono (hasVoid_mono (infix_wrap _ _ _))
  | hint m v ih => exact ih.mono (hasVoid_mono ⟨[.tagHint m], [], by simp [toks]⟩)
  | _ => exact .refl _ _

end Sval.Flatten
