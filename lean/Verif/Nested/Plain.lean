import Verif.Nested.Deep

set_option autoImplicit false
set_option linter.unusedSimpArgs false

/-!
# What an argument does to an ordinary stream
-/

namespace Sval.Nested

mutual
/-- There is no sequence in the value. -/
def noSeq : V → Bool
  | .seq _ _ => false
  | .map _ kvs => noSeqMap kvs
  | .tagged _ v => noSeq v
  | .enum _ v => noSeq v
  | .record _ _ fs => noSeqRec fs
  | .tuple _ _ fs => noSeqTup fs
  | .recordTuple _ _ fs => noSeqRT fs
  | .hint _ v => noSeq v
  | _ => true
def noSeqMap : List (V × V) → Bool
  | [] => true
  | (k, v) :: r => noSeq k && noSeq v && noSeqMap r
def noSeqRec : List (Option Tag × Label × V) → Bool
  | [] => true
  | (_, _, v) :: r => noSeq v && noSeqRec r
def noSeqTup : List (Option Tag × Index × V) → Bool
  | [] => true
  | (_, _, v) :: r => noSeq v && noSeqTup r
def noSeqRT : List (Option Tag × Label × Index × V) → Bool
  | [] => true
  | (_, _, _, v) :: r => noSeq v && noSeqRT r
end

/-- The calls, without those around the elements of sequences. -/
def strip (T : List Token) : List Token := T.filter fun t => t ≠ .seqValueBegin && t ≠ .seqValueEnd

theorem strip_append (A B : List Token) : strip (A ++ B) = strip A ++ strip B := List.filter_append ..

theorem strip_cons (t : Token) (B : List Token) : strip (t :: B) = strip [t] ++ strip B := strip_append [t] B

/-- A list of calls for the value, maybe without calls around elements. -/
def Plain (T : List Token) (v : V) : Prop :=
  ∃ w, seen w = v ∧ strip T = strip (toks w) ∧ (noSeq v = true → T = toks w)

theorem choose {α : Type} {P : α → V → Prop} (L : List α) (h : ∀ x ∈ L, ∃ w, P x w) :
    ∃ M : List (α × V), M.map (·.1) = L ∧ ∀ y ∈ M, P y.1 y.2 := by
  induction L with
  | nil => exact ⟨[], rfl, by simp⟩
  | cons x L ih =>
    obtain ⟨w, hw⟩ := h x (by simp)
    obtain ⟨M, hM, hP⟩ := ih fun y hy => h y (by simp [hy])
    refine ⟨(x, w) :: M, by simp [hM], ?_⟩
    intro y hy
    cases hy with
    | head => exact hw
    | tail _ hy => exact hP y hy

theorem flat_flatMap {α : Type} (L : List α) (f : α → List Item) (c : Bool) :
    flat (L.flatMap f) c = L.flatMap fun x => flat (f x) c := by
  induction L with
  | nil => rfl
  | cons x L ih => simp [List.flatMap_cons, flat_append, ih]

theorem flat_tok_cons (t : Token) (q : List Item) (c : Bool) : flat (.tok t :: q) c = (if c then computedTok t else t) :: flat q c := rfl

theorem flat_text (fs : List (Frag Text)) (c : Bool) : ∃ gs : List (Frag Text),
    flat (fs.map (Item.tok ∘ textFragTok)) c = gs.map textFragTok ∧ gs.map Frag.content = fs.map Frag.content := by
  induction fs with
  | nil => exact ⟨[], rfl, rfl⟩
  | cons f fs ih =>
    obtain ⟨gs, h1, h2⟩ := ih
    refine ⟨(if c then .computed f.content else f) :: gs, ?_, ?_⟩
    · rw [List.map_cons, List.map_cons, Function.comp_apply, flat_tok_cons, h1]
      cases c <;> cases f <;> rfl
    · rw [List.map_cons, List.map_cons, h2]; cases c <;> rfl

theorem flat_binary (fs : List (Frag Bytes)) (c : Bool) : ∃ gs : List (Frag Bytes),
    flat (fs.map (Item.tok ∘ binFragTok)) c = gs.map binFragTok ∧ gs.map Frag.content = fs.map Frag.content := by
  induction fs with
  | nil => exact ⟨[], rfl, rfl⟩
  | cons f fs ih =>
    obtain ⟨gs, h1, h2⟩ := ih
    refine ⟨(if c then .computed f.content else f) :: gs, ?_, ?_⟩
    · rw [List.map_cons, List.map_cons, Function.comp_apply, flat_tok_cons, h1]
      cases c <;> cases f <;> rfl
    · rw [List.map_cons, List.map_cons, h2]; cases c <;> rfl

theorem comp_tok (c : Bool) (t : Token) (h : computedTok t = t) : (if c then computedTok t else t) = t := by
  cases c <;> simp [h]

theorem plain_one (T : List Token) (v w : V) (h : seen w = v) (hT : T = toks w) : Plain T v := ⟨w, h, by rw [hT], fun _ => hT⟩

theorem plain_shows (q : List Item) (v : V) (h : Shows q v) : ∀ c, Plain (flat q c) v := by
  induction h with
  | null => exact fun c => plain_one _ _ .null rfl (by cases c <;> rfl)
  | bool b => exact fun c => plain_one _ _ (.bool b) rfl (by cases c <;> rfl)
  | int t v => exact fun c => plain_one _ _ (.int t v) rfl (by cases c <;> rfl)
  | f32 b => exact fun c => plain_one _ _ (.f32 b) rfl (by cases c <;> rfl)
  | f64 b => exact fun c => plain_one _ _ (.f64 b) rfl (by cases c <;> rfl)
  | tag m => exact fun c => plain_one _ _ (.tag m) rfl (by cases c <;> rfl)
  | text n fs =>
    intro c
    obtain ⟨gs, h1, h2⟩ := flat_text fs c
    refine plain_one _ _ (.text n gs) (by rw [seen, h2]) ?_
    rw [flat_tok_cons, flat_append, h1]
    cases c <;> rfl
  | binary n fs =>
    intro c
    obtain ⟨gs, h1, h2⟩ := flat_binary fs c
    refine plain_one _ _ (.binary n gs) (by rw [seen, h2]) ?_
    rw [flat_tok_cons, flat_append, h1]
    cases c <;> rfl
  | seq n L h ih =>
    intro c
    obtain ⟨M, rfl, hM⟩ := choose L fun x hx => ih x hx c
    refine ⟨.seq n (M.map (·.2)), ?_, ?_, fun h => Bool.noConfusion h⟩
    · rw [seen]; congr 1
      clear ih h
      induction M with
      | nil => rfl
      | cons y M ih => simp [seenSeq, (hM y (by simp)).1, ← ih fun z hz => hM z (by simp [hz])]
    · rw [flat_tok_cons, flat_append, toks, flat_flatMap, strip_cons, strip_cons (.seqBegin n), strip_append, strip_append]
      congr 1
      · cases c <;> rfl
      congr 1
      · clear ih h
        induction M with
        | nil => rfl
        | cons y M ih =>
          have hy := (hM y (by simp)).2.1
          have := ih fun z hz => hM z (by simp [hz])
          simp only [List.map_cons, List.flatMap_cons, toksSeq, strip_append, flat_tok_cons, flat_append] at this ⊢
          rw [this, strip_cons, strip_append, hy, strip_cons .seqValueBegin]
          cases c <;> simp [strip, flat, Item.flat, computedTok]
      · cases c <;> rfl
  | bareSeq n L h ih =>
    intro c
    obtain ⟨M, rfl, hM⟩ := choose L fun x hx => ih x hx c
    refine ⟨.seq n (M.map (·.2)), ?_, ?_, fun h => Bool.noConfusion h⟩
    · rw [seen]; congr 1
      clear ih h
      induction M with
      | nil => rfl
      | cons y M ih => simp [seenSeq, (hM y (by simp)).1, ← ih fun z hz => hM z (by simp [hz])]
    · rw [flat_tok_cons, flat_append, toks, flat_flatMap, strip_cons, strip_cons (.seqBegin n), strip_append, strip_append]
      congr 1
      · cases c <;> rfl
      congr 1
      · clear ih h
        induction M with
        | nil => rfl
        | cons y M ih =>
          have hy := (hM y (by simp)).2.1
          have := ih fun z hz => hM z (by simp [hz])
          simp only [List.map_cons, List.flatMap_cons, toksSeq, strip_append, flat_tok_cons, flat_append] at this ⊢
          rw [this, hy, strip_cons .seqValueBegin]
          simp [strip]
      · cases c <;> rfl
  | map n L h1 h2 ih1 ih2 =>
    intro c
    obtain ⟨M', rfl, hM'⟩ := choose L fun x hx => ih1 x hx c
    obtain ⟨M, rfl, hM⟩ := choose M' fun x hx => ih2 x.1 (List.mem_map_of_mem hx) c
    clear ih1 ih2 h1 h2
    refine ⟨.map n (M.map fun x => (x.1.2, x.2)), ?_, ?_, ?_⟩
    · rw [seen]; congr 1
      induction M with
      | nil => rfl
      | cons y M ih =>
        have := ih (fun z hz => hM z (by simp [hz])) (fun z hz => hM' z (List.mem_cons_of_mem _ hz))
        simp only [List.map_cons, seenMap, this, (hM y (by simp)).1, (hM' y.1 (by simp)).1]
    · rw [flat_tok_cons, flat_append, toks, flat_flatMap, strip_cons, strip_cons (.mapBegin n), strip_append, strip_append]
      congr 1
      · cases c <;> rfl
      congr 1
      · induction M with
        | nil => rfl
        | cons y M ih =>
          have hy := (hM y (by simp)).2.1
          have hy' := (hM' y.1 (by simp)).2.1
          have := ih (fun z hz => hM z (by simp [hz])) (fun z hz => hM' z (List.mem_cons_of_mem _ hz))
          simp only [List.map_cons, List.flatMap_cons, toksMap, strip_append, flat_tok_cons, flat_append] at this ⊢
          rw [this, strip_cons, strip_cons (if c then computedTok .mapValueBegin else .mapValueBegin), strip_append, strip_append, hy, hy']
          cases c <;> simp [strip, flat, computedTok]
      · cases c <;> rfl
    · intro hs
      rw [flat_tok_cons, flat_append, toks, flat_flatMap]
      congr 1
      · cases c <;> rfl
      congr 1
      · simp only [noSeq] at hs
        induction M with
        | nil => rfl
        | cons y M ih =>
          simp only [List.map_cons, noSeqMap, Bool.and_eq_true] at hs
          have hy := (hM y (by simp)).2.2 hs.1.2
          have hy' := (hM' y.1 (by simp)).2.2 hs.1.1
          have := ih (fun z hz => hM z (by simp [hz])) (fun z hz => hM' z (List.mem_cons_of_mem _ hz)) hs.2
          simp only [List.map_cons, List.flatMap_cons, toksMap, flat_tok_cons, flat_append] at this ⊢
          rw [this, hy, hy']
          cases c <;> simp [flat, Item.flat, computedTok]
      · cases c <;> rfl
  | tuple m n L h ih =>
    intro c
    obtain ⟨M, rfl, hM⟩ := choose L fun x hx => ih x hx c
    clear ih h
    refine ⟨.tuple m n (M.map fun x => (x.1.1, x.1.2.1, x.2)), ?_, ?_, ?_⟩
    · rw [seen]; congr 1
      induction M with
      | nil => rfl
      | cons y M ih =>
        simp [seenTup, (hM y (by simp)).1, ← ih (fun z hz => hM z (by simp [hz]))]
    · rw [flat_tok_cons, flat_append, toks, flat_flatMap, strip_cons, strip_cons (.tupleBegin m n), strip_append, strip_append]
      congr 1
      · cases c <;> rfl
      congr 1
      · induction M with
        | nil => rfl
        | cons y M ih =>
          have hy := (hM y (by simp)).2.1
          have := ih (fun z hz => hM z (by simp [hz]))
          simp only [List.map_cons, List.flatMap_cons, toksTup, strip_append, flat_tok_cons, flat_append] at this ⊢
          rw [this, strip_cons, strip_append, hy, strip_cons (.tupleValueBegin _ _)]
          cases c <;> simp [strip, flat, Item.flat, computedTok]
      · cases c <;> rfl
    · intro hs
      rw [flat_tok_cons, flat_append, toks, flat_flatMap]
      congr 1
      · cases c <;> rfl
      congr 1
      · simp only [noSeq] at hs
        induction M with
        | nil => rfl
        | cons y M ih =>
          simp only [List.map_cons, noSeqTup, Bool.and_eq_true] at hs
          have hy := (hM y (by simp)).2.2 hs.1
          have := ih (fun z hz => hM z (by simp [hz])) hs.2
          simp only [List.map_cons, List.flatMap_cons, toksTup, flat_tok_cons, flat_append] at this ⊢
          rw [this, hy]
          cases c <;> simp [flat, Item.flat, computedTok]
      · cases c <;> rfl
  | record m n L h ih =>
    intro c
    obtain ⟨M, rfl, hM⟩ := choose L fun x hx => ih x hx c
    clear ih h
    refine ⟨.record m n (M.map fun x => (x.1.1, x.1.2.1, x.2)), ?_, ?_, ?_⟩
    · rw [seen]; congr 1
      induction M with
      | nil => rfl
      | cons y M ih =>
        simp [seenRec, (hM y (by simp)).1, ← ih (fun z hz => hM z (by simp [hz]))]
    · rw [flat_tok_cons, flat_append, toks, flat_flatMap, strip_cons, strip_cons (.recordBegin m n), strip_append, strip_append]
      congr 1
      · cases c <;> rfl
      congr 1
      · induction M with
        | nil => rfl
        | cons y M ih =>
          have hy := (hM y (by simp)).2.1
          have := ih (fun z hz => hM z (by simp [hz]))
          simp only [List.map_cons, List.flatMap_cons, toksRec, strip_append, flat_tok_cons, flat_append] at this ⊢
          rw [this, strip_cons, strip_append, hy, strip_cons (.recordValueBegin _ _)]
          cases c <;> simp [strip, flat, Item.flat, computedTok]
      · cases c <;> rfl
    · intro hs
      rw [flat_tok_cons, flat_append, toks, flat_flatMap]
      congr 1
      · cases c <;> rfl
      congr 1
      · simp only [noSeq] at hs
        induction M with
        | nil => rfl
        | cons y M ih =>
          simp only [List.map_cons, noSeqRec, Bool.and_eq_true] at hs
          have hy := (hM y (by simp)).2.2 hs.1
          have := ih (fun z hz => hM z (by simp [hz])) hs.2
          simp only [List.map_cons, List.flatMap_cons, toksRec, flat_tok_cons, flat_append] at this ⊢
          rw [this, hy]
          cases c <;> simp [flat, Item.flat, computedTok]
      · cases c <;> rfl
  | recordTuple m n L h ih =>
    intro c
    obtain ⟨M, rfl, hM⟩ := choose L fun x hx => ih x hx c
    clear ih h
    refine ⟨.recordTuple m n (M.map fun x => (x.1.1, x.1.2.1, x.1.2.2.1, x.2)), ?_, ?_, ?_⟩
    · rw [seen]; congr 1
      induction M with
      | nil => rfl
      | cons y M ih =>
        simp [seenRT, (hM y (by simp)).1, ← ih (fun z hz => hM z (by simp [hz]))]
    · rw [flat_tok_cons, flat_append, toks, flat_flatMap, strip_cons, strip_cons (.recordTupleBegin m n), strip_append, strip_append]
      congr 1
      · cases c <;> rfl
      congr 1
      · induction M with
        | nil => rfl
        | cons y M ih =>
          have hy := (hM y (by simp)).2.1
          have := ih (fun z hz => hM z (by simp [hz]))
          simp only [List.map_cons, List.flatMap_cons, toksRT, strip_append, flat_tok_cons, flat_append] at this ⊢
          rw [this, strip_cons, strip_append, hy, strip_cons (.recordTupleValueBegin _ _ _)]
          cases c <;> simp [strip, flat, Item.flat, computedTok]
      · cases c <;> rfl
    · intro hs
      rw [flat_tok_cons, flat_append, toks, flat_flatMap]
      congr 1
      · cases c <;> rfl
      congr 1
      · simp only [noSeq] at hs
        induction M with
        | nil => rfl
        | cons y M ih =>
          simp only [List.map_cons, noSeqRec, Bool.and_eq_true] at hs
          have hy := (hM y (by simp)).2.2 hs.1
          have := ih (fun z hz => hM z (by simp [hz])) hs.2
          simp only [List.map_cons, List.flatMap_cons, toksRT, flat_tok_cons, flat_append] at this ⊢
          rw [this, hy]
          cases c <;> simp [flat, Item.flat, computedTok]
      · cases c <;> rfl
  | tagged m q v h ih =>
    intro c
    obtain ⟨w, h1, h2, h3⟩ := ih c
    refine ⟨.tagged m w, by rw [seen, h1], ?_, fun hs => ?_⟩
    · rw [flat_tok_cons, flat_append, toks, strip_cons, strip_append, strip_cons (.taggedBegin m), strip_append, h2]
      cases c <;> rfl
    · rw [flat_tok_cons, flat_append, toks, h3 hs]
      cases c <;> rfl
  | enum m q v h ih =>
    intro c
    obtain ⟨w, h1, h2, h3⟩ := ih c
    refine ⟨.enum m w, by rw [seen, h1], ?_, fun hs => ?_⟩
    · rw [flat_tok_cons, flat_append, toks, strip_cons, strip_append, strip_cons (.enumBegin m), strip_append, h2]
      cases c <;> rfl
    · rw [flat_tok_cons, flat_append, toks, h3 hs]
      cases c <;> rfl
  | hint t q v h ih =>
    intro c
    obtain ⟨w, h1, h2, h3⟩ := ih c
    refine ⟨.hint t w, by rw [seen, h1], ?_, fun hs => ?_⟩
    · rw [flat_tok_cons, toks, strip_cons, strip_cons (.tagHint t), h2]
      cases c <;> rfl
    · rw [flat_tok_cons, toks, h3 hs]
      cases c <;> rfl
  | val q v h ih => intro c; simpa [flat, Item.flat] using ih c
  | comp q v h ih => intro c; simpa [flat, Item.flat] using ih true

/-! ## On an ordinary stream -/

mutual
theorem exec_accepts_item (i : Item) (k : Prog) (c : Bool) (l : List Token) :
    Sval.exec (recorder fun _ _ => true) (i.prog k) (wrapper c) l = Sval.exec (recorder fun _ _ => true) k (wrapper c) (l ++ i.flat c) := by
  match i with
  | .tok t => simp [Item.prog, Sval.exec, wrapper_tok, recorder, Item.flat]
  | .val q =>
    have e : (wrapper c).valueTarget = wrapper c := by cases c <;> rfl
    simp only [Item.prog, Sval.exec, e]
    rw [exec_accepts q c l]; rfl
  | .comp q =>
    have e : (wrapper c).computedTarget = wrapper true := by cases c <;> rfl
    simp only [Item.prog, Sval.exec, e]
    rw [exec_accepts q true l]; rfl
theorem exec_accepts (q : List Item) (c : Bool) (l : List Token) :
    Sval.exec (recorder fun _ _ => true) (prog q) (wrapper c) l = (l ++ flat q c, true) := by
  match q with
  | [] => simp [prog, Sval.exec, flat]
  | i :: q =>
    rw [prog, exec_accepts_item i (prog q) c l, exec_accepts q c, flat, List.append_assoc]
end

end Sval.Nested
