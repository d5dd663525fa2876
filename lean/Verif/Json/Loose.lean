import Verif.Json.Main

set_option autoImplicit false

/-!
# Maps with named keys and named values

In a map, a key with a name makes the formatter write the name of the value, as if it were a variant; the brace it
opens is never closed. `loose` is `safe` without the condition that this does not happen. `valueL` is the text that is
written, `holes` the number of braces that are missing in it.
-/

namespace Sval.Json

/-- The name in front of a value, if one is pending. -/
def headT (tg : Bool) : V → Text
  | .tagged m _ | .enum m _ | .record m _ _ | .tuple m _ _ | .recordTuple m _ _ =>
    if tg && (idOf m).isSome then '{' :: keyLit (nameT m) else []
  | .hint _ v => headT tg v
  | _ => []

/-- Numbers and raw JSON with a name. -/
def rawName : V → Bool
  | .tagged m _ => isSpecialTag m.tag && m.tag != some tags.JSON_TEXT && (idOf m).isSome
  | .hint _ v => rawName v
  | _ => false

/-- An enum without a name that holds a variant with one. -/
def extraName : V → Bool
  | .enum m v => (idOf m).isNone && named v
  | .hint _ v => extraName v
  | _ => false

section
variable (env : Env)

mutual
def valueL : V → Text
  | .null => t! "null"
  | .bool b => if b then t! "true" else t! "false"
  | .int _ v => intDec v
  | .f32 b => if f32Finite b then env.f32 b else t! "null"
  | .f64 b => if f64Finite b then env.f64 b else t! "null"
  | .text _ fs => quoteT (escT (fragsText fs))
  | .binary _ fs => brackets ((fragsBytes fs).map fun b => intDec b.toNat)
  | .seq _ xs => brackets (valuesL xs)
  | .map _ kvs => braces (entriesL kvs)
  | .tag m => tagT m
  | .tagged m v => if isSpecialTag m.tag then specialT m.tag ((textOf v).getD []) else valueL v
  | .enum _ v => headT true v ++ (valueL v ++ if named v then ['}'] else [])
  | .record _ _ fs => braces (fieldsL fs)
  | .tuple _ _ fs => brackets (itemsL fs)
  | .recordTuple _ _ fs => braces (fieldsRTL fs)
  | .hint _ v => valueL v
def valuesL : List V → List Text
  | [] => []
  | x :: xs => valueL x :: valuesL xs
def entriesL : List (V × V) → List Text
  | [] => []
  | (k, v) :: r => (keyLit (keyT env k) ++ (headT (named k) v ++ valueL v)) :: entriesL r
def fieldsL : List (Option Tag × Label × V) → List Text
  | [] => []
  | (_, l, v) :: r => (keyLit (labelT l) ++ valueL v) :: fieldsL r
def itemsL : List (Option Tag × Index × V) → List Text
  | [] => []
  | (_, _, v) :: r => valueL v :: itemsL r
def fieldsRTL : List (Option Tag × Label × Index × V) → List Text
  | [] => []
  | (_, l, _, v) :: r => (keyLit (labelT l) ++ valueL v) :: fieldsRTL r
end
end

mutual
def loose : V → Bool
  | .seq _ xs => looses xs
  | .map _ kvs => looseEntries kvs
  | .tagged m v => if isSpecialTag m.tag then safeText m.tag v else loose v
  | .enum _ v => loose v && !rawName v && !extraName v
  | .record _ _ fs => looseFields fs
  | .tuple _ _ fs => looseItems fs
  | .recordTuple _ _ fs => looseRT fs
  | .hint _ v => loose v
  | _ => true
def looses : List V → Bool
  | [] => true
  | x :: xs => loose x && looses xs
def looseEntries : List (V × V) → Bool
  | [] => true
  | (k, v) :: r => safeKey k && loose v && !(named k && rawName v) && looseEntries r
def looseFields : List (Option Tag × Label × V) → Bool
  | [] => true
  | (_, _, v) :: r => loose v && looseFields r
def looseItems : List (Option Tag × Index × V) → Bool
  | [] => true
  | (_, _, v) :: r => loose v && looseItems r
def looseRT : List (Option Tag × Label × Index × V) → Bool
  | [] => true
  | (_, _, _, v) :: r => loose v && looseRT r
end

mutual
/-- How many entries of maps have a name on both sides. -/
def holes : V → Nat
  | .seq _ xs => holesSeq xs
  | .map _ kvs => holesMap kvs
  | .tagged m v => if isSpecialTag m.tag then 0 else holes v
  | .enum _ v => holes v
  | .record _ _ fs => holesRec fs
  | .tuple _ _ fs => holesTup fs
  | .recordTuple _ _ fs => holesRT fs
  | .hint _ v => holes v
  | _ => 0
def holesSeq : List V → Nat
  | [] => 0
  | x :: xs => holes x + holesSeq xs
def holesMap : List (V × V) → Nat
  | [] => 0
  | (k, v) :: r => (if named k && named v then 1 else 0) + holes v + holesMap r
def holesRec : List (Option Tag × Label × V) → Nat
  | [] => 0
  | (_, _, v) :: r => holes v + holesRec r
def holesTup : List (Option Tag × Index × V) → Nat
  | [] => 0
  | (_, _, v) :: r => holes v + holesTup r
def holesRT : List (Option Tag × Label × Index × V) → Nat
  | [] => 0
  | (_, _, _, v) :: r => holes v + holesRT r
end

/-! ## Running the formatter -/

variable (env : Env)

def QV (v : V) : Prop := ∀ j, value env v = some j → loose v = true → ∀ tg em bk o, (tg = true → rawName v = false) →
  ∃ tg', run (call strWriter env) (toks v) ⟨tg, em, true, none, bk, o⟩ =
      .ok ⟨tg', false, true, none, bk, o ++ (headT tg v ++ valueL env v)⟩ ∧
    (tg = true → extraName v = false → (variant env v).isSome = true → tg' = named v)

theorem QV_leaf (v : V) (hrun : ∀ tg em bk o, ∃ tg', run (call strWriter env) (toks v) ⟨tg, em, true, none, bk, o⟩ =
      .ok ⟨tg', false, true, none, bk, o ++ valueL env v⟩) (hh : ∀ tg, headT tg v = []) (hX : variant env v = none) :
    QV env v := by
  intro j _ _ tg em bk o _
  obtain ⟨tg', h⟩ := hrun tg em bk o
  refine ⟨tg', by rw [h, hh]; rfl, fun _ _ h => ?_⟩
  rw [hX] at h; cases h

/-- From the statement about safe values, for values without parts. -/
theorem QV_simple (v : V) (h : P4 env v) (hs : safe v = true) (hn : named v = false) (ht : valueL env v = valueT env v)
    (hh : ∀ tg, headT tg v = []) (hX : variant env v = none) : QV env v := by
  intro j hj _ tg em bk o _
  obtain ⟨t, tg', h1, _, h2⟩ := h.1 j hj hs tg em bk o (.inr hn)
  refine ⟨tg', by rw [h1, hh, ht, h2]; rfl, fun _ _ h => ?_⟩
  rw [hX] at h; cases h

theorem QV_tag (m : Meta) : QV env (.tag m) := by
  intro j _ _ tg em bk o _
  obtain ⟨t, h1, h2, _⟩ := tag_run env m tg em true bk o
  exact ⟨false, by rw [h1, (h2 rfl).2]; rfl, fun _ _ _ => rfl⟩

theorem seqL_tail (xs : List V) (ih : ∀ x ∈ xs, QV env x) (js : List J) (hj : values env xs = some js) (hs : looses xs = true)
    (tg bk : Bool) (o : Text) : ∃ tg', run (call strWriter env) (toksSeq xs) ⟨tg, false, true, none, bk, o⟩ =
      .ok ⟨tg', false, true, none, bk, o ++ tails (valuesL env xs)⟩ := by
  induction xs generalizing js tg o with
  | nil => exact ⟨tg, by simp [toksSeq, valuesL, tails]⟩
  | cons x xs ihx =>
    obtain ⟨y, ys, h1, h2, rfl⟩ := consO_some hj
    rw [looses, Bool.and_eq_true] at hs
    obtain ⟨tg1, r1, _⟩ := ih x (by simp) y h1 hs.1 false false bk (o ++ [',']) nofun
    obtain ⟨tg2, r2⟩ := ihx (fun x hx => ih x (by simp [hx])) ys h2 hs.2 tg1 (o ++ [','] ++ (headT false x ++ valueL env x))
    refine ⟨tg2, ?_⟩
    simp only [toksSeq, run_cons, run_append, call_seqValueBegin_next, Res.bind, r1, call_seqValueEnd, r2]
    simp [valuesL, tails, headT_false]
where
  headT_false (v : V) : headT false v = [] := by
    induction v using V.ind with
    | hint t v ih => exact ih
    | _ => rfl

theorem headT_false (v : V) : headT false v = [] := seqL_tail.headT_false v

theorem seqL_body (xs : List V) (ih : ∀ x ∈ xs, QV env x) (js : List J) (hj : values env xs = some js) (hs : looses xs = true)
    (tg bk : Bool) (o : Text) : ∃ tg' em, run (call strWriter env) (toksSeq xs) ⟨tg, true, true, none, bk, o⟩ =
      .ok ⟨tg', em, true, none, bk, o ++ commas (valuesL env xs)⟩ := by
  cases xs with
  | nil => exact ⟨tg, true, by simp [toksSeq, valuesL, commas]⟩
  | cons x xs =>
    obtain ⟨y, ys, h1, h2, rfl⟩ := consO_some hj
    rw [looses, Bool.and_eq_true] at hs
    obtain ⟨tg1, r1, _⟩ := ih x (by simp) y h1 hs.1 false true bk o nofun
    obtain ⟨tg2, r2⟩ := seqL_tail env xs (fun x hx => ih x (by simp [hx])) ys h2 hs.2 tg1 bk (o ++ (headT false x ++ valueL env x))
    refine ⟨tg2, false, ?_⟩
    simp only [toksSeq, run_cons, run_append, call_seqValueBegin_first, Res.bind, r1, call_seqValueEnd, r2]
    simp [valuesL, commas_cons, headT_false]

theorem itemsL_valuesL (fs : List (Option Tag × Index × V)) : itemsL env fs = valuesL env (fs.map (·.2.2)) := by
  induction fs with
  | nil => rfl
  | cons f fs ih => obtain ⟨t, i, v⟩ := f; simp only [itemsL, List.map_cons, valuesL, ih]

theorem looseItems_looses (fs : List (Option Tag × Index × V)) : looseItems fs = looses (fs.map (·.2.2)) := by
  induction fs with
  | nil => rfl
  | cons f fs ih => obtain ⟨t, i, v⟩ := f; simp only [looseItems, List.map_cons, looses, ih]

theorem fieldsRTL_fieldsL (fs : List (Option Tag × Label × Index × V)) : fieldsRTL env fs = fieldsL env (unRT fs) := by
  induction fs with
  | nil => rfl
  | cons f fs ih => obtain ⟨t, l, i, v⟩ := f; simp only [fieldsRTL, ih, unRT, List.map_cons, fieldsL]

theorem looseRT_looseFields (fs : List (Option Tag × Label × Index × V)) : looseRT fs = looseFields (unRT fs) := by
  induction fs with
  | nil => rfl
  | cons f fs ih => obtain ⟨t, l, i, v⟩ := f; simp only [looseRT, ih, unRT, List.map_cons, looseFields]

theorem recL_tail (fs : List (Option Tag × Label × V)) (ih : ∀ f ∈ fs, QV env f.2.2) (js : List (Text × J))
    (hj : fields env fs = some js) (hs : looseFields fs = true) (tg bk : Bool) (o : Text) :
    ∃ tg', run (call strWriter env) (toksRec fs) ⟨tg, false, true, none, bk, o⟩ =
      .ok ⟨tg', false, true, none, bk, o ++ tails (fieldsL env fs)⟩ := by
  induction fs generalizing js tg o with
  | nil => exact ⟨tg, by simp [toksRec, fieldsL, tails]⟩
  | cons f fs ihx =>
    obtain ⟨tag, l, x⟩ := f
    obtain ⟨y, ys, h1, h2, rfl⟩ := consO_some hj
    obtain ⟨k, j, h3, h4, rfl⟩ := pairO_some h1
    rw [looseFields, Bool.and_eq_true] at hs
    obtain ⟨k', hk, he, hc⟩ := labelText_lit h3
    have hb := call_recordValueBegin env hc tag tg false bk o
    obtain ⟨tg1, r1, _⟩ := ih (tag, l, x) (by simp) j h4 hs.1 false false bk (o ++ ([','] ++ keyLit k')) nofun
    obtain ⟨tg2, r2⟩ := ihx (fun x hx => ih x (by simp [hx])) ys h2 hs.2 tg1
      (o ++ ([','] ++ keyLit k') ++ (headT false x ++ valueL env x))
    refine ⟨tg2, ?_⟩
    simp only [toksRec, run_cons, run_append, hb, Res.bind, Bool.false_eq_true, if_false, r1, call_recordValueEnd, r2]
    simp [fieldsL, tails, headT_false, he]

theorem recL_body (fs : List (Option Tag × Label × V)) (ih : ∀ f ∈ fs, QV env f.2.2) (js : List (Text × J))
    (hj : fields env fs = some js) (hs : looseFields fs = true) (tg bk : Bool) (o : Text) :
    ∃ tg' em, run (call strWriter env) (toksRec fs) ⟨tg, true, true, none, bk, o⟩ =
      .ok ⟨tg', em, true, none, bk, o ++ commas (fieldsL env fs)⟩ := by
  cases fs with
  | nil => exact ⟨tg, true, by simp [toksRec, fieldsL, commas]⟩
  | cons f fs =>
    obtain ⟨tag, l, x⟩ := f
    obtain ⟨y, ys, h1, h2, rfl⟩ := consO_some hj
    obtain ⟨k, j, h3, h4, rfl⟩ := pairO_some h1
    rw [looseFields, Bool.and_eq_true] at hs
    obtain ⟨k', hk, he, hc⟩ := labelText_lit h3
    have hb := call_recordValueBegin env hc tag tg true bk o
    obtain ⟨tg1, r1, _⟩ := ih (tag, l, x) (by simp) j h4 hs.1 false true bk (o ++ ([] ++ keyLit k')) nofun
    obtain ⟨tg2, r2⟩ := recL_tail env fs (fun x hx => ih x (by simp [hx])) ys h2 hs.2 tg1 bk
      (o ++ ([] ++ keyLit k') ++ (headT false x ++ valueL env x))
    refine ⟨tg2, false, ?_⟩
    simp only [toksRec, run_cons, run_append, hb, Res.bind, if_true, r1, call_recordValueEnd, r2]
    simp [fieldsL, commas_cons, headT_false, he]

theorem mapL_entry (k v : V) (hv : QV env v) (u : Text) (j : J) (h1 : keyText env k = some u)
    (h2 : value env v = some j) (h3 : safeKey k = true) (h4 : loose v = true) (h5 : (named k && rawName v) = false)
    (r : List Token) (tg em bk : Bool) (o : Text) : ∃ tg',
    run (call strWriter env) (.mapKeyBegin :: (toks k ++ .mapKeyEnd :: .mapValueBegin :: (toks v ++ .mapValueEnd :: r)))
      ⟨tg, em, true, none, bk, o⟩ = run (call strWriter env) r
        ⟨tg', false, true, none, bk, o ++ ((if em then [] else [',']) ++
          (keyLit (keyT env k) ++ (headT (named k) v ++ valueL env v)))⟩ := by
  obtain ⟨k', q, r1, _, e1⟩ := (P4_all env k).2.2.1 u h1 h3 em bk (o ++ ((if em then [] else [',']) ++ ['"']))
  obtain ⟨tg', r2, _⟩ := hv j h2 h4 (named k) false bk (o ++ ((if em then [] else [',']) ++ ['"']) ++ k' ++ ['"', ':'])
    (fun hn => by rw [hn, Bool.true_and] at h5; exact h5)
  refine ⟨tg', ?_⟩
  simp only [run_cons, run_append, call_mapKeyBegin, Res.bind, r1, call_mapKeyEnd, call_mapValueBegin, r2, call_mapValueEnd]
  simp [keyLit, e1]

theorem mapL_tail (fs : List (V × V)) (ih : ∀ f ∈ fs, QV env f.2) (js : List (Text × J))
    (hj : entries env fs = some js) (hs : looseEntries fs = true) (tg bk : Bool) (o : Text) :
    ∃ tg', run (call strWriter env) (toksMap fs) ⟨tg, false, true, none, bk, o⟩ =
      .ok ⟨tg', false, true, none, bk, o ++ tails (entriesL env fs)⟩ := by
  induction fs generalizing js tg o with
  | nil => exact ⟨tg, by simp [toksMap, entriesL, tails]⟩
  | cons f fs ihx =>
    obtain ⟨k, x⟩ := f
    obtain ⟨y, ys, h1, h2, rfl⟩ := consO_some hj
    obtain ⟨u, j, h3, h4, rfl⟩ := pairO_some h1
    simp only [looseEntries, Bool.and_eq_true, Bool.not_eq_true'] at hs
    obtain ⟨⟨⟨s1, s2⟩, s3⟩, s4⟩ := hs
    obtain ⟨tg1, r1⟩ := mapL_entry env k x (ih (k, x) (by simp)) u j h3 h4 s1 s2 s3 (toksMap fs) tg false bk o
    obtain ⟨tg2, r2⟩ := ihx (fun x hx => ih x (by simp [hx])) ys h2 s4 tg1
      (o ++ ([','] ++ (keyLit (keyT env k) ++ (headT (named k) x ++ valueL env x))))
    refine ⟨tg2, ?_⟩
    simp only [toksMap]
    rw [r1]
    simp only [Bool.false_eq_true, if_false]
    rw [r2]
    simp [entriesL, tails]

theorem mapL_body (fs : List (V × V)) (ih : ∀ f ∈ fs, QV env f.2) (js : List (Text × J))
    (hj : entries env fs = some js) (hs : looseEntries fs = true) (tg bk : Bool) (o : Text) :
    ∃ tg' em, run (call strWriter env) (toksMap fs) ⟨tg, true, true, none, bk, o⟩ =
      .ok ⟨tg', em, true, none, bk, o ++ commas (entriesL env fs)⟩ := by
  cases fs with
  | nil => exact ⟨tg, true, by simp [toksMap, entriesL, commas]⟩
  | cons f fs =>
    obtain ⟨k, x⟩ := f
    obtain ⟨y, ys, h1, h2, rfl⟩ := consO_some hj
    obtain ⟨u, j, h3, h4, rfl⟩ := pairO_some h1
    simp only [looseEntries, Bool.and_eq_true, Bool.not_eq_true'] at hs
    obtain ⟨⟨⟨s1, s2⟩, s3⟩, s4⟩ := hs
    obtain ⟨tg1, r1⟩ := mapL_entry env k x (ih (k, x) (by simp)) u j h3 h4 s1 s2 s3 (toksMap fs) tg true bk o
    obtain ⟨tg2, r2⟩ := mapL_tail env fs (fun x hx => ih x (by simp [hx])) ys h2 s4 tg1 bk
      (o ++ ([] ++ (keyLit (keyT env k) ++ (headT (named k) x ++ valueL env x))))
    refine ⟨tg2, false, ?_⟩
    simp only [toksMap]
    rw [r1]
    simp only [if_true]
    rw [r2]
    simp [entriesL, commas_cons]

theorem QV_seq (n : Option Nat) (xs : List V) (ih : ∀ x ∈ xs, QV env x) : QV env (.seq n xs) := by
  intro j hj hs tg em bk o _
  rw [value, Option.map_eq_some_iff] at hj
  obtain ⟨js, hj, rfl⟩ := hj
  obtain ⟨tg', em', h1⟩ := seqL_body env xs ih js hj hs tg bk (o ++ ['['])
  refine ⟨tg', ?_, fun _ _ h => by cases h⟩
  simp only [toks, run_cons]
  rw [call_one env _ _ rfl]
  simp only [step, seqBegin, Bool.not_true, Bool.false_eq_true, if_false, wr_str, Res.bind, run_append, h1, run_cons, run_nil]
  rw [call_one env _ _ rfl]
  simp only [step, seqEnd, wr_str]
  simp [headT, valueL, brackets]

theorem QV_map (n : Option Nat) (kvs : List (V × V)) (ih : ∀ f ∈ kvs, QV env f.2) : QV env (.map n kvs) := by
  intro j hj hs tg em bk o _
  rw [value, Option.map_eq_some_iff] at hj
  obtain ⟨js, hj, rfl⟩ := hj
  obtain ⟨tg', em', h1⟩ := mapL_body env kvs ih js hj hs tg bk (o ++ ['{'])
  refine ⟨tg', ?_, fun _ _ h => by cases h⟩
  simp only [toks, run_cons]
  rw [call_one env _ _ rfl]
  simp only [step, mapBegin, Bool.not_true, Bool.false_eq_true, if_false, wr_str, Res.bind, run_append, h1, run_cons, run_nil]
  rw [call_one env _ _ rfl]
  simp only [step, mapEnd, wr_str]
  simp [headT, valueL, braces]

theorem head_run (m : Meta) (x : Text) (tg' : Bool) (body : St Text → Res Unit (St Text))
    (hb : ∀ em bk o, body ⟨false, em, true, none, bk, o⟩ = .ok ⟨tg', false, true, none, bk, o ++ x⟩)
    (tg em bk : Bool) (o : Text) : (tagBegin strWriter m ⟨tg, em, true, none, bk, o⟩).bind body =
      .ok ⟨tg', false, true, none, bk, o ++ ((if tg && (idOf m).isSome then '{' :: keyLit (nameT m) else []) ++ x)⟩ := by
  by_cases h : tg = false ∨ idOf m = none
  · rw [tagBegin_skip' m _ _ _ _ _ _ h]
    have : (tg && (idOf m).isSome) = false := by rcases h with h | h <;> simp [h]
    simp only [Res.bind, hb, this, Bool.false_eq_true, if_false, List.nil_append]
  · cases tg with
    | false => exact absurd (.inl rfl) h
    | true =>
      cases hk : idOf m with
      | none => exact absurd (.inr hk) h
      | some k =>
        obtain ⟨k', e, _, h0, h2⟩ := tagBegin_open m ⟨true, em, true, none, bk, o⟩ k rfl rfl hk
        rw [h2]
        simp only [Res.bind]
        rw [hb]
        simp [h0]

theorem QV_record (m : Meta) (n : Option Nat) (fs : List (Option Tag × Label × V)) (ih : ∀ f ∈ fs, QV env f.2.2) :
    QV env (.record m n fs) := by
  intro j hj hs tg em bk o _
  rw [value, Option.map_eq_some_iff] at hj
  obtain ⟨js, hj, rfl⟩ := hj
  refine ⟨(idOf m).isSome, ?_, fun _ _ _ => rfl⟩
  have hr : ∀ s, run (call strWriter env) (toks (.record m n fs)) s = (tagBegin strWriter m s).bind fun s =>
      (mapBegin strWriter s).bind fun s => run (call strWriter env) (toksRec fs ++ [.recordEnd m]) s := by
    intro s
    simp only [toks, run_cons]
    rw [call_one env _ _ rfl]
    simp only [step, Res.bind_assoc]
  rw [hr]
  refine head_run m (braces (fieldsL env fs)) _ _ (fun em bk o => ?_) tg em bk o
  obtain ⟨tg', em', h1⟩ := recL_body env fs ih js hj hs false bk (o ++ ['{'])
  simp only [mapBegin, Bool.not_true, Bool.false_eq_true, if_false, wr_str, Res.bind, run_append, h1, run_cons, run_nil]
  rw [call_one env _ _ rfl]
  simp only [step, mapEnd, wr_str, Res.bind, tagEnd_eq]
  simp [braces]

theorem QV_recordTuple (m : Meta) (n : Option Nat) (fs : List (Option Tag × Label × Index × V)) (ih : ∀ f ∈ fs, QV env f.2.2.2) :
    QV env (.recordTuple m n fs) := by
  have h := QV_record env m n (unRT fs) (fun f hf => by
    simp only [unRT, List.mem_map] at hf
    obtain ⟨g, hg, rfl⟩ := hf
    exact ih g hg)
  have hr : ∀ s, run (call strWriter env) (toks (.recordTuple m n fs)) s =
      run (call strWriter env) (toks (.record m n (unRT fs))) s := by
    intro s
    simp only [toks, run_cons]
    rw [call_recordTupleBegin]
    congr 1; funext s
    rw [run_append, run_append, rt_run]
    rfl
  intro j hj hs tg em bk o hn
  obtain ⟨tg', h1, h2⟩ := h j (by rw [value, ← fieldsRT_fields]; exact hj) (by rw [loose, ← looseRT_looseFields]; exact hs)
    tg em bk o (fun _ => rfl)
  refine ⟨tg', by rw [hr, h1]; simp only [valueL, fieldsRTL_fieldsL, headT], fun h3 _ h4 => h2 h3 rfl ?_⟩
  rw [variant, ← fieldsRT_fields]; exact h4

theorem QV_tuple (m : Meta) (n : Option Nat) (fs : List (Option Tag × Index × V)) (ih : ∀ f ∈ fs, QV env f.2.2) :
    QV env (.tuple m n fs) := by
  intro j hj hs tg em bk o _
  rw [value, Option.map_eq_some_iff] at hj
  obtain ⟨js, hj, rfl⟩ := hj
  refine ⟨(idOf m).isSome, ?_, fun _ _ _ => rfl⟩
  have hr : ∀ s, run (call strWriter env) (toks (.tuple m n fs)) s = (tagBegin strWriter m s).bind fun s =>
      (seqBegin strWriter s).bind fun s => run (call strWriter env) (toksTup fs ++ [.tupleEnd m]) s := by
    intro s
    simp only [toks, run_cons]
    rw [call_one env _ _ rfl]
    simp only [step, Res.bind_assoc]
  rw [hr]
  refine head_run m (brackets (itemsL env fs)) _ _ (fun em bk o => ?_) tg em bk o
  obtain ⟨tg', em', h1⟩ := seqL_body env (fs.map (·.2.2)) (fun x hx => by
    simp only [List.mem_map] at hx
    obtain ⟨f, hf, rfl⟩ := hx
    exact ih f hf) js (by rw [← items_values]; exact hj) (by rw [← looseItems_looses]; exact hs) false bk (o ++ ['['])
  simp only [seqBegin, Bool.not_true, Bool.false_eq_true, if_false, wr_str, Res.bind, run_append, tup_run, h1, run_cons, run_nil]
  rw [call_one env _ _ rfl]
  simp only [step, seqEnd, wr_str, Res.bind, tagEnd_eq]
  simp [brackets, itemsL_valuesL]

theorem QV_tagged (m : Meta) (v : V) (ih : QV env v) : QV env (.tagged m v) := by
  intro j hj hs tg em bk o hn
  by_cases hsp : isSpecialTag m.tag = true
  · refine ⟨(idOf m).isSome, ?_, fun _ _ _ => rfl⟩
    simp only [value, hsp, if_true, Option.bind_eq_some_iff] at hj
    obtain ⟨t, ht, hj⟩ := hj
    simp only [loose, hsp, if_true] at hs
    by_cases h : tg = false ∨ idOf m = none
    · obtain ⟨u, h1, _, h3⟩ := special_value env m v t j hsp ht hj hs tg em bk o h
      have : (tg && (idOf m).isSome) = false := by rcases h with h | h <;> simp [h]
      rw [h1, h3]
      simp [headT, this, valueL, hsp, ht]
    · cases tg with
      | false => exact absurd (.inl rfl) h
      | true =>
        cases hk : idOf m with
        | none => exact absurd (.inr hk) h
        | some k =>
          have ht' : m.tag = some tags.JSON_TEXT := by
            have := hn rfl
            simpa [rawName, hsp, hk] using this
          obtain ⟨k', e, _, h0, h2⟩ := tagBegin_open m ⟨true, em, true, some .native, bk, o⟩ k rfl rfl hk
          have := special_text_aux env m v ⟨true, em, true, none, bk, o⟩ ⟨false, e, true, none, bk, o ++ ('{' :: keyLit k')⟩ t
            ht' ht h2
          rw [this]
          rw [ht'] at hsp
          simp [headT, hk, h0, valueL, hsp, ht, specialT, ht', quote, quoteT]
  · rw [Bool.not_eq_true] at hsp
    refine ⟨(idOf m).isSome, ?_, fun _ _ _ => rfl⟩
    rw [tagged_run env m v hsp]
    simp only [value, hsp, Bool.false_eq_true, if_false] at hj
    simp only [loose, hsp, Bool.false_eq_true, if_false] at hs
    simp only [valueL, hsp, Bool.false_eq_true, if_false]
    refine head_run m (valueL env v) _ _ (fun em bk o => ?_) tg em bk o
    obtain ⟨tg', h1, _⟩ := ih j hj hs false true bk o nofun
    rw [h1]
    simp only [Res.bind, Bool.false_eq_true, if_false, tagEnd_eq, headT_false, List.nil_append]

/-- What is a variant is a value. -/
theorem value_of_variant (v : V) (j : J) (h : variant env v = some j) : ∃ j', value env v = some j' := by
  induction v using V.ind generalizing j with
  | hint t v ih => exact ih j h
  | tag m => exact ⟨_, rfl⟩
  | tagged m v ih =>
    simp only [variant, Option.map_eq_some_iff] at h
    obtain ⟨j', h, _⟩ := h
    exact ⟨j', by simpa [value] using h⟩
  | enum m v ih =>
    simp only [variant, Option.map_eq_some_iff] at h
    obtain ⟨j', h, _⟩ := h
    exact ⟨j', by simpa [value] using h⟩
  | record m n fs ih =>
    simp only [variant, Option.map_eq_some_iff] at h
    obtain ⟨j', h, _⟩ := h
    exact ⟨.obj j', by simp [value, h]⟩
  | tuple m n fs ih =>
    simp only [variant, Option.map_eq_some_iff] at h
    obtain ⟨j', h, _⟩ := h
    exact ⟨.arr j', by simp [value, h]⟩
  | recordTuple m n fs ih =>
    simp only [variant, Option.map_eq_some_iff] at h
    obtain ⟨j', h, _⟩ := h
    exact ⟨.obj j', by simp [value, h]⟩
  | _ => cases h

theorem QV_enum (m : Meta) (v : V) (ih : QV env v) : QV env (.enum m v) := by
  intro j hj hs tg em bk o _
  simp only [loose, Bool.and_eq_true, Bool.not_eq_true'] at hs
  obtain ⟨j', hj'⟩ := value_of_variant env v j hj
  refine ⟨named v || (idOf m).isSome, ?_, fun _ h _ => ?_⟩
  · rw [enum_run]
    refine head_run m (valueL env (.enum m v)) _ _ (fun em bk o => ?_) tg em bk o
    obtain ⟨tg', h1, h2⟩ := ih j' hj' hs.1.1 true true bk o (fun _ => hs.1.2)
    rw [h2 rfl hs.2 (by rw [show variant env v = some j from hj]; rfl)] at h1
    simp only
    rw [h1]
    cases hn : named v
    · simp [Res.bind, tagEnd_eq, valueL, hn]
    · simp [Res.bind, tagMapEnd, mapEnd, wr_str, valueL, hn]
  · show _ = (idOf m).isSome
    simp only [extraName, Bool.and_eq_false_iff] at h
    rcases h with h | h
    · cases hk : idOf m with
      | none => rw [hk] at h; cases h
      | some k => simp
    · simp [h]

theorem QV_all (v : V) : QV env v := by
  induction v using V.ind with
  | null => exact QV_simple env _ (P4_null env) rfl rfl rfl (fun _ => rfl) rfl
  | bool b => exact QV_simple env _ (P4_bool env b) rfl rfl rfl (fun _ => rfl) rfl
  | int t v => exact QV_simple env _ (P4_int env t v) rfl rfl rfl (fun _ => rfl) rfl
  | f32 b => exact QV_simple env _ (P4_f32 env b) rfl rfl rfl (fun _ => rfl) rfl
  | f64 b => exact QV_simple env _ (P4_f64 env b) rfl rfl rfl (fun _ => rfl) rfl
  | text n fs => exact QV_simple env _ (P4_text env n fs) rfl rfl rfl (fun _ => rfl) rfl
  | binary n fs => exact QV_simple env _ (P4_binary env n fs) rfl rfl rfl (fun _ => rfl) rfl
  | seq n xs ih => exact QV_seq env n xs ih
  | map n kvs ih => exact QV_map env n kvs (fun f hf => (ih f hf).2)
  | tag m => exact QV_tag env m
  | tagged m v ih => exact QV_tagged env m v ih
  | enum m v ih => exact QV_enum env m v ih
  | record m n fs ih => exact QV_record env m n fs ih
  | tuple m n fs ih => exact QV_tuple env m n fs ih
  | recordTuple m n fs ih => exact QV_recordTuple env m n fs ih
  | hint t v ih =>
    intro j hj hs tg em bk o hn
    exact ih j hj hs tg em bk o hn

/-- What is written for a loose value. -/
theorem run_loose (v : V) (j : J) (hj : value env v = some j) (hs : loose v = true) :
    ∃ s, run (call strWriter env) (toks v) { out := [] } = .ok s ∧ s.out = valueL env v := by
  obtain ⟨tg, h1, _⟩ := QV_all env v j hj hs false true false [] nofun
  exact ⟨_, h1, by simp [headT_false]⟩

end Sval.Json
