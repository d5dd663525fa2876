import Verif.Json.Join
import Verif.Json.Main
import Verif.Json.Link
import Verif.Buffer.More

set_option autoImplicit false

/-!
# The formatter on values that were buffered
-/

namespace Sval.Json

open Buf (norm own normSeq normMap normRec normTup normRT mergedFrag mergedFrag_content)

/-! ## The values for which a buffer makes no difference -/

/-- A label that is written the same with and without its tag: `sval::tags::VALUE_IDENT`, `src/data/tags.rs:77-86`. -/
def identOk (l : Label) : Bool := !(l.tag = some tags.VALUE_IDENT) || l.text.all rawOk

mutual
/-- Labels tagged as identifiers are identifiers, and text tagged NUMBER is a number. With `one`, for what else is tagged
NUMBER: no text is in several fragments. -/
def steady (one : Bool) : V → Bool
  | .text _ fs => !one || decide (fs.length ≤ 1)
  | .seq _ xs => steadys one xs
  | .map _ kvs => steadyKVs one kvs
  | .tagged m v => (!one && m.tag = some tags.NUMBER && numOk v) || steady (one || m.tag = some tags.NUMBER) v
  | .enum _ v => steady one v
  | .record _ _ fs => steadyRec one fs
  | .tuple _ _ fs => steadyTup one fs
  | .recordTuple _ _ fs => steadyRT one fs
  | .hint _ v => steady one v
  | _ => true
def steadys (one : Bool) : List V → Bool
  | [] => true
  | x :: xs => steady one x && steadys one xs
def steadyKVs (one : Bool) : List (V × V) → Bool
  | [] => true
  | (k, v) :: r => steady one k && steady one v && steadyKVs one r
def steadyRec (one : Bool) : List (Option Tag × Label × V) → Bool
  | [] => true
  | (_, l, v) :: r => identOk l && steady one v && steadyRec one r
def steadyTup (one : Bool) : List (Option Tag × Index × V) → Bool
  | [] => true
  | (_, _, v) :: r => steady one v && steadyTup one r
def steadyRT (one : Bool) : List (Option Tag × Label × Index × V) → Bool
  | [] => true
  | (_, l, _, v) :: r => identOk l && steady one v && steadyRT one r
end

/-! ## Owned labels -/

theorem toOwned_text (l : Label) : l.toOwned.text = l.text := by
  unfold Label.toOwned
  split <;> rfl

theorem toOwned_tag (l : Label) : l.toOwned.tag = none := by
  unfold Label.toOwned
  split <;> rfl

theorem own_tagBegin (m : Meta) (s : St Text) : tagBegin strWriter (own m) s = tagBegin strWriter m s := by
  obtain ⟨t, l, i⟩ := m
  cases l
  · rfl
  · simp only [own, Option.map_some, tagBegin, toOwned_text]

theorem own_tagEnd (m : Meta) (s : St Text) : tagEnd (own m) s = tagEnd m s := by
  obtain ⟨t, l, i⟩ := m
  cases l <;> rfl

theorem own_tagStep (m : Meta) (s : St Text) : tagStep strWriter (own m) s = tagStep strWriter m s := by
  obtain ⟨t, l, i⟩ := m
  cases l
  · rfl
  · simp only [own, Option.map_some, tagStep, toOwned_text]

theorem own_tag (m : Meta) : (own m).tag = m.tag := rfl

theorem own_label {l : Label} (h : identOk l = true) (s : St Text) :
    recordValueBegin strWriter l.toOwned s = recordValueBegin strWriter l s := by
  have h1 : ∀ s : St Text, (if l.toOwned.tag = some tags.VALUE_IDENT then wr (strWriter l.toOwned.text) s
      else wr (escapeStr strWriter l.toOwned.text) s) =
      (if l.tag = some tags.VALUE_IDENT then wr (strWriter l.text) s else wr (escapeStr strWriter l.text) s) := by
    intro s
    rw [toOwned_tag, toOwned_text, if_neg (by simp)]
    split
    · rename_i ht
      have hr : l.text.all rawOk = true := by simpa [identOk, ht] using h
      simp [wr, escapeStr_str, escape_raw _ hr, strWriter]
    · rfl
  simp only [recordValueBegin, h1]

section
variable (env : Env)

/-- Two calls with the same effect. -/
def Alike (t t' : Token) : Prop := ∀ s : St Text, call strWriter env t' s = call strWriter env t s

theorem Alike.rfl (t : Token) : Alike env t t := fun _ => Eq.refl _

theorem alike_taggedBegin (m : Meta) : Alike env (.taggedBegin m) (.taggedBegin (own m)) := by
  intro s
  rw [call_one env _ _ (Eq.refl _), call_one env _ _ (Eq.refl _)]
  simp only [step, taggedBegin, own_tag, own_tagBegin]
  rfl

theorem alike_taggedEnd (m : Meta) : Alike env (.taggedEnd m) (.taggedEnd (own m)) := by
  intro s
  rw [call_one env _ _ (Eq.refl _), call_one env _ _ (Eq.refl _)]
  simp only [step, taggedEnd, own_tag, own_tagStep, own_tagEnd]
  rfl

theorem alike_enumBegin (m : Meta) : Alike env (.enumBegin m) (.enumBegin (own m)) := by
  intro s
  rw [call_one env _ _ (Eq.refl _), call_one env _ _ (Eq.refl _)]
  simp only [step, enumBegin, own_tagBegin]

theorem alike_enumEnd (m : Meta) : Alike env (.enumEnd m) (.enumEnd (own m)) := by
  intro s
  rw [call_one env _ _ (Eq.refl _), call_one env _ _ (Eq.refl _)]
  simp only [step, enumEnd, own_tagStep, own_tagEnd]

theorem alike_tag (m : Meta) : Alike env (.tag m) (.tag (own m)) := by
  intro s
  rw [call_one env _ _ (Eq.refl _), call_one env _ _ (Eq.refl _)]
  simp only [step, own_tagStep]

theorem alike_recordBegin (m : Meta) (n : Option Nat) : Alike env (.recordBegin m n) (.recordBegin (own m) n) := by
  intro s
  rw [call_one env _ _ (Eq.refl _), call_one env _ _ (Eq.refl _)]
  simp only [step, own_tagBegin]

theorem alike_recordEnd (m : Meta) : Alike env (.recordEnd m) (.recordEnd (own m)) := by
  intro s
  rw [call_one env _ _ (Eq.refl _), call_one env _ _ (Eq.refl _)]
  simp only [step, own_tagEnd]

theorem alike_tupleBegin (m : Meta) (n : Option Nat) : Alike env (.tupleBegin m n) (.tupleBegin (own m) n) := by
  intro s
  rw [call_one env _ _ (Eq.refl _), call_one env _ _ (Eq.refl _)]
  simp only [step, own_tagBegin]

theorem alike_tupleEnd (m : Meta) : Alike env (.tupleEnd m) (.tupleEnd (own m)) := by
  intro s
  rw [call_one env _ _ (Eq.refl _), call_one env _ _ (Eq.refl _)]
  simp only [step, own_tagEnd]

theorem alike_valueBegin (t : Option Tag) {l : Label} (h : identOk l = true) :
    Alike env (.recordValueBegin t l) (.recordValueBegin t l.toOwned) := by
  intro s
  rw [call_one env _ _ (Eq.refl _), call_one env _ _ (Eq.refl _)]
  simp only [step, own_label h]

theorem alike_valueEnd (t : Option Tag) (l : Label) : Alike env (.recordValueEnd t l) (.recordValueEnd t l.toOwned) := by
  intro s
  rw [call_one env _ _ (Eq.refl _), call_one env _ _ (Eq.refl _)]
  simp only [step]

theorem alike_rtBegin (m : Meta) (n : Option Nat) : Alike env (.recordTupleBegin m n) (.recordTupleBegin (own m) n) :=
  alike_recordBegin env m n

theorem alike_rtEnd (m : Meta) : Alike env (.recordTupleEnd m) (.recordTupleEnd (own m)) := alike_recordEnd env m

theorem alike_rtValueBegin (t : Option Tag) {l : Label} (i : Index) (h : identOk l = true) :
    Alike env (.recordTupleValueBegin t l i) (.recordTupleValueBegin t l.toOwned i) := alike_valueBegin env t h

theorem alike_rtValueEnd (t : Option Tag) (l : Label) (i : Index) :
    Alike env (.recordTupleValueEnd t l i) (.recordTupleValueEnd t l.toOwned i) := alike_valueEnd env t l

/-! ## Values -/

/-- Relations between calls that are congruences. -/
structure Cong (R : List Token → List Token → Prop) : Prop where
  nil : R [] []
  app : ∀ {a a' b b'}, R a a' → R b b' → R (a ++ b) (a' ++ b')
  one : ∀ {t t'}, (∀ m, t = .taggedBegin m → m.tag ≠ some tags.NUMBER) → Alike env t t' → R [t] [t']

variable {env}

theorem Cong.cons {R : List Token → List Token → Prop} (c : Cong env R) {t t' : Token} {a a' : List Token}
    (h : ∀ m, t = .taggedBegin m → m.tag ≠ some tags.NUMBER) (ha : Alike env t t') (hr : R a a') : R (t :: a) (t' :: a') :=
  c.app (c.one h ha) hr

theorem Cong.seq {R : List Token → List Token → Prop} (c : Cong env R) {xs : List V} (h : ∀ x ∈ xs, R (toks x) (toks (norm x))) :
    R (toksSeq xs) (toksSeq (normSeq xs)) := by
  induction xs with
  | nil => exact c.nil
  | cons x xs ih =>
    exact c.cons (by simp) (.rfl env _) (c.app (h x (by simp)) (c.cons (by simp) (.rfl env _) (ih fun y hy => h y (by simp [hy]))))

theorem Cong.map {R : List Token → List Token → Prop} (c : Cong env R) {kvs : List (V × V)}
    (h : ∀ x ∈ kvs, R (toks x.1) (toks (norm x.1)) ∧ R (toks x.2) (toks (norm x.2))) :
    R (toksMap kvs) (toksMap (normMap kvs)) := by
  induction kvs with
  | nil => exact c.nil
  | cons x xs ih =>
    exact c.cons (by simp) (.rfl env _) (c.app (h x (by simp)).1 (c.cons (by simp) (.rfl env _) (c.cons (by simp) (.rfl env _)
      (c.app (h x (by simp)).2 (c.cons (by simp) (.rfl env _) (ih fun y hy => h y (by simp [hy])))))))

theorem Cong.fields {R : List Token → List Token → Prop} (c : Cong env R) {fs : List (Option Tag × Label × V)}
    (h : ∀ x ∈ fs, identOk x.2.1 = true ∧ R (toks x.2.2) (toks (norm x.2.2))) :
    R (toksRec fs) (toksRec (normRec fs)) := by
  induction fs with
  | nil => exact c.nil
  | cons x xs ih =>
    obtain ⟨h1, h2⟩ := h x (by simp)
    exact c.cons (by simp) (alike_valueBegin env _ h1) (c.app h2
      (c.cons (by simp) (alike_valueEnd env _ _) (ih fun y hy => h y (by simp [hy]))))

theorem Cong.tup {R : List Token → List Token → Prop} (c : Cong env R) {fs : List (Option Tag × Index × V)}
    (h : ∀ x ∈ fs, R (toks x.2.2) (toks (norm x.2.2))) : R (toksTup fs) (toksTup (normTup fs)) := by
  induction fs with
  | nil => exact c.nil
  | cons x xs ih =>
    exact c.cons (by simp) (.rfl env _) (c.app (h x (by simp)) (c.cons (by simp) (.rfl env _) (ih fun y hy => h y (by simp [hy]))))

theorem Cong.rt {R : List Token → List Token → Prop} (c : Cong env R) {fs : List (Option Tag × Label × Index × V)}
    (h : ∀ x ∈ fs, identOk x.2.1 = true ∧ R (toks x.2.2.2) (toks (norm x.2.2.2))) :
    R (toksRT fs) (toksRT (normRT fs)) := by
  induction fs with
  | nil => exact c.nil
  | cons x xs ih =>
    obtain ⟨h1, h2⟩ := h x (by simp)
    exact c.cons (by simp) (alike_rtValueBegin env _ _ h1) (c.app h2
      (c.cons (by simp) (alike_rtValueEnd env _ _ _) (ih fun y hy => h y (by simp [hy]))))

/-- One step into a value, for congruences that relate its parts. -/
theorem Cong.step {R : List Token → List Token → Prop} (c : Cong env R) (one : Bool) (v : V) (hv : steady one v = true)
    (htext : ∀ n fs, v = .text n fs → R (toks v) (toks (norm v)))
    (hbin : ∀ n fs, v = .binary n fs → R (toks v) (toks (norm v)))
    (htag : ∀ m w, v = .tagged m w → R (toks v) (toks (norm v)))
    (ih : ∀ w, steady one w = true → sizeOf w < sizeOf v → R (toks w) (toks (norm w))) : R (toks v) (toks (norm v)) := by
  cases v with
  | text n fs => exact htext _ _ rfl
  | binary n fs => exact hbin _ _ rfl
  | tagged m w => exact htag _ _ rfl
  | null => exact c.one (by simp) (.rfl env _)
  | bool b => exact c.one (by simp) (.rfl env _)
  | int t v => exact c.one (by simp) (.rfl env _)
  | f32 b => exact c.one (by simp) (.rfl env _)
  | f64 b => exact c.one (by simp) (.rfl env _)
  | tag m => exact c.one (by simp) (alike_tag env m)
  | seq n xs =>
    refine c.cons (by simp) (.rfl env _) (c.app (c.seq fun x hx => ih x ?_ ?_) (c.one (by simp) (.rfl env _)))
    · rw [steady] at hv
      clear ih htext hbin htag
      induction xs with
      | nil => cases hx
      | cons y ys ihy =>
        simp only [steadys, Bool.and_eq_true] at hv
        rcases List.mem_cons.1 hx with rfl | hx
        · exact hv.1
        · exact ihy hv.2 hx
    · have := List.sizeOf_lt_of_mem hx
      simp only [V.seq.sizeOf_spec]; omega
  | map n kvs =>
    have hs (x : V × V) (hx : x ∈ kvs) : steady one x.1 = true ∧ steady one x.2 = true := by
      rw [steady] at hv
      clear ih htext hbin htag
      induction kvs with
      | nil => cases hx
      | cons y ys ihy =>
        obtain ⟨k, w⟩ := y
        simp only [steadyKVs, Bool.and_eq_true] at hv
        rcases List.mem_cons.1 hx with rfl | hx
        · exact hv.1
        · exact ihy hv.2 hx
    refine c.cons (by simp) (.rfl env _) (c.app (c.map fun x hx => ⟨ih x.1 (hs x hx).1 ?_, ih x.2 (hs x hx).2 ?_⟩)
      (c.one (by simp) (.rfl env _)))
    all_goals
      have := List.sizeOf_lt_of_mem hx
      obtain ⟨k, w⟩ := x
      simp only [V.map.sizeOf_spec, Prod.mk.sizeOf_spec] at *; omega
  | record m n fs =>
    have hs (x : Option Tag × Label × V) (hx : x ∈ fs) : identOk x.2.1 = true ∧ steady one x.2.2 = true := by
      rw [steady] at hv
      clear ih htext hbin htag
      induction fs with
      | nil => cases hx
      | cons y ys ihy =>
        obtain ⟨t, k, w⟩ := y
        simp only [steadyRec, Bool.and_eq_true] at hv
        rcases List.mem_cons.1 hx with rfl | hx
        · exact hv.1
        · exact ihy hv.2 hx
    refine c.cons (by simp) (alike_recordBegin env m n) (c.app (c.fields fun x hx => ⟨(hs x hx).1, ih x.2.2 (hs x hx).2 ?_⟩)
      (c.one (by simp) (alike_recordEnd env m)))
    have := List.sizeOf_lt_of_mem hx
    obtain ⟨t, k, w⟩ := x
    simp only [V.record.sizeOf_spec, Prod.mk.sizeOf_spec] at *; omega
  | tuple m n fs =>
    have hs (x : Option Tag × Index × V) (hx : x ∈ fs) : steady one x.2.2 = true := by
      rw [steady] at hv
      clear ih htext hbin htag
      induction fs with
      | nil => cases hx
      | cons y ys ihy =>
        obtain ⟨t, k, w⟩ := y
        simp only [steadyTup, Bool.and_eq_true] at hv
        rcases List.mem_cons.1 hx with rfl | hx
        · exact hv.1
        · exact ihy hv.2 hx
    refine c.cons (by simp) (alike_tupleBegin env m n) (c.app (c.tup fun x hx => ih x.2.2 (hs x hx) ?_)
      (c.one (by simp) (alike_tupleEnd env m)))
    have := List.sizeOf_lt_of_mem hx
    obtain ⟨t, k, w⟩ := x
    simp only [V.tuple.sizeOf_spec, Prod.mk.sizeOf_spec] at *; omega
  | recordTuple m n fs =>
    have hs (x : Option Tag × Label × Index × V) (hx : x ∈ fs) : identOk x.2.1 = true ∧ steady one x.2.2.2 = true := by
      rw [steady] at hv
      clear ih htext hbin htag
      induction fs with
      | nil => cases hx
      | cons y ys ihy =>
        obtain ⟨t, k, i, w⟩ := y
        simp only [steadyRT, Bool.and_eq_true] at hv
        rcases List.mem_cons.1 hx with rfl | hx
        · exact hv.1
        · exact ihy hv.2 hx
    refine c.cons (by simp) (alike_rtBegin env m n) (c.app (c.rt fun x hx => ⟨(hs x hx).1, ih x.2.2.2 (hs x hx).2 ?_⟩)
      (c.one (by simp) (alike_rtEnd env m)))
    have := List.sizeOf_lt_of_mem hx
    obtain ⟨t, k, i, w⟩ := x
    simp only [V.recordTuple.sizeOf_spec, Prod.mk.sizeOf_spec] at *; omega
  | enum m w =>
    rw [steady] at hv
    exact c.cons (by simp) (alike_enumBegin env m) (c.app (ih w hv (by simp only [V.enum.sizeOf_spec]; omega))
      (c.one (by simp) (alike_enumEnd env m)))
  | hint t w =>
    rw [steady] at hv
    exact c.cons (by simp) (.rfl env _) (ih w hv (by simp only [V.hint.sizeOf_spec]; omega))

/-- Calls with the same effect, from any state. -/
def SameAll (env : Env) (a a' : List Token) : Prop := ∀ s : St Text, run (call strWriter env) a' s = run (call strWriter env) a s

theorem SameAll.app {a a' b b' : List Token} (h : SameAll env a a') (h' : SameAll env b b') : SameAll env (a ++ b) (a' ++ b') := by
  intro s
  rw [run_append, run_append, h s]
  cases run (call strWriter env) a s with
  | ok s1 => exact h' s1
  | _ => rfl

theorem SameAll.one {t t' : Token} (h : Alike env t t') : SameAll env [t] [t'] := by
  intro s
  rw [run_cons, run_cons, h s]

theorem sameAll_cong : Cong env (SameAll env) := ⟨fun _ => rfl, .app, fun _ => .one⟩

theorem same_cong : Cong env (Same env) := by
  refine ⟨.nil, .app, fun {t t'} h ha s hs => ⟨?_, (Same.one t h s hs).2⟩⟩
  rw [run_cons, run_cons, ha s]

theorem norm_binary (n : Option Nat) (fs : List (Frag Bytes)) : SameAll env (toks (.binary n fs)) (toks (norm (.binary n fs))) := by
  intro s
  rw [norm, binary_run, binary_run]
  have : fragsBytes [mergedFrag fs] = fragsBytes fs := by simp [fragsBytes, mergedFrag_content]
  rw [this]
  rfl

theorem fragsText_merged (fs : List (Frag Text)) : fragsText [mergedFrag fs] = fragsText fs := by
  simp [fragsText, mergedFrag_content]

theorem norm_text1 (n : Option Nat) (fs : List (Frag Text)) (h : fs.length ≤ 1) :
    SameAll env (toks (.text n fs)) (toks (norm (.text n fs))) := by
  have hb : SameAll env [.textBegin n] [.textBegin (some (utf8Len (fragsText fs)))] := fun s => by rfl
  have hf (f : Text) (s : St Text) : call strWriter env (.textFragment f) s = call strWriter env (.textFragmentComputed f) s := by
    rfl
  have hg (f : Frag Text) (s : St Text) : call strWriter env (textFragTok f) s = call strWriter env (.textFragmentComputed f.content) s := by
    cases f
    · exact hf _ s
    · rfl
  refine .app hb (SameAll.app (a' := [mergedFrag fs].map textFragTok) (fun s => ?_) (.one (.rfl env _)))
  clear hb
  match fs, h with
  | [], _ =>
    simp only [List.map_cons, List.map_nil, run_cons, run_nil]
    rw [hg, mergedFrag_content, call_one env _ _ rfl]
    obtain ⟨tg, em, q, hd, bk, o⟩ := s
    cases hd with
    | none => simp [step, textFragment, wr, escapeStr_str, escape, Res.bind]
    | some h =>
      cases h with
      | native => simp [step, textFragment, wr, strWriter, Res.bind]
      | number n =>
        have : numFragment strWriter [] (n, o) = .ok (n, o) := by
          unfold numFragment
          split
          · rfl
          · simp [numLoop, sliceBytes, strWriter, dropBytes, takeBytes]
        simp [step, textFragment, this, Res.bind]
  | [f], _ =>
    simp only [List.map_cons, List.map_nil, run_cons]
    rw [hg, hg f, mergedFrag_content]
    simp

theorem norm_one (v : V) (hv : steady true v = true) : SameAll env (toks v) (toks (norm v)) := by
  refine sameAll_cong.step true v hv (fun n fs h => ?_) (fun n fs h => ?_) (fun m w h => ?_) fun w hw _ => norm_one w hw
  · subst h; exact norm_text1 n fs (by simpa [steady] using hv)
  · subst h; exact norm_binary n fs
  · subst h
    simp only [steady, Bool.not_true, Bool.false_and, Bool.true_or, Bool.false_or] at hv
    exact .app (.one (alike_taggedBegin env m)) (.app (norm_one w hv) (.one (alike_taggedEnd env m)))
termination_by sizeOf v

theorem textOf_norm (v : V) (t : Text) (h : textOf v = some t) : textOf (norm v) = some t := by
  induction v using V.ind with
  | text n fs => cases h; simp [norm, textOf, fragsText_merged]
  | hint tg v ih => exact ih h
  | _ => cases h

theorem norm_number (m : Meta) (v : V) (hm : m.tag = some tags.NUMBER) (hv : numOk v = true) :
    Same env (toks (.tagged m v)) (toks (norm (.tagged m v))) := by
  intro s hs
  refine ⟨?_, (same_join (.tagged m v) s hs).2⟩
  cases ht : textOf v with
  | none => simp [numOk, ht] at hv
  | some t =>
    rw [← number_same m v (norm v) t hm ht (textOf_norm v t ht) hv s hs]
    exact SameAll.app (.one (alike_taggedBegin env m)) (.app (fun _ => rfl) (.one (alike_taggedEnd env m))) s

/-- The formatter does not notice that a value was buffered. -/
theorem same_norm (v : V) (hv : steady false v = true) : Same env (toks v) (toks (norm v)) := by
  refine same_cong.step false v hv (fun n fs h => ?_) (fun n fs h => ?_) (fun m w h => ?_) fun w hw _ => same_norm w hw
  · subst h
    have hb : Same env [.textBegin n] [.textBegin (some (utf8Len (fragsText fs)))] := fun s hs =>
      Same.one (.textBegin n) (by simp) s hs
    exact .app hb (.app (Same.frags fs [mergedFrag fs] (fragsText_merged fs).symm) (.one _ (by simp)))
  · subst h
    intro s hs
    exact ⟨norm_binary n fs s, (same_join (.binary n fs) s hs).2⟩
  · subst h
    by_cases hm : m.tag = some tags.NUMBER
    · simp only [steady, Bool.not_false, Bool.true_and, hm, decide_true, Bool.false_or, Bool.or_eq_true] at hv
      rcases hv with hv | hv
      · exact norm_number m w hm hv
      · intro s hs
        exact ⟨SameAll.app (.one (alike_taggedBegin env m)) (.app (norm_one w hv) (.one (alike_taggedEnd env m))) s,
          (same_join (.tagged m w) s hs).2⟩
    · simp only [steady, Bool.not_false, Bool.true_and, hm, decide_false, Bool.false_or, Bool.false_and, Bool.or_self] at hv
      exact same_cong.cons (fun m' h => by cases h; exact hm) (alike_taggedBegin env m)
        (.app (same_norm w hv) (same_cong.one (by simp) (alike_taggedEnd env m)))
termination_by sizeOf v

/-! ## Values that were buffered as owned -/

theorem alike_computed (t : Token) : Alike env t (computedTok t) := by
  cases t <;> intro s <;> rfl

theorem run_computed (ts : List Token) : SameAll env ts (ts.map computedTok) := by
  induction ts with
  | nil => exact fun _ => rfl
  | cons t ts ih => exact SameAll.app (a := [t]) (a' := [computedTok t]) (.one (alike_computed t)) ih

omit env in
theorem textOf_comp (v : V) : textOf (Buf.comp v) = textOf v := by
  induction v using V.ind with
  | text n fs =>
    have h : Frag.content ∘ Buf.fragComp = (Frag.content : Frag Text → Text) := by funext f; cases f <;> rfl
    simp [Buf.comp, textOf, fragsText, h]
  | hint t v ih => exact ih
  | _ => rfl

omit env in
theorem steady_comp (one : Bool) (v : V) : steady one (Buf.comp v) = steady one v := by
  induction v using V.ind generalizing one with
  | text n fs => simp [Buf.comp, steady]
  | tagged m v ih => simp [Buf.comp, steady, ih, numOk, textOf_comp]
  | seq n xs ih =>
    simp only [Buf.comp, steady]
    induction xs with
    | nil => rfl
    | cons x xs ihx => simp_all [-Bool.forall_bool, Buf.compSeq, steadys]
  | map n kvs ih =>
    simp only [Buf.comp, steady]
    induction kvs with
    | nil => rfl
    | cons x xs ihx => obtain ⟨k, v⟩ := x; simp_all [-Bool.forall_bool, Buf.compMap, steadyKVs]
  | record m n fs ih =>
    simp only [Buf.comp, steady]
    induction fs with
    | nil => rfl
    | cons x xs ihx => obtain ⟨t, l, v⟩ := x; simp_all [-Bool.forall_bool, Buf.compRec, steadyRec]
  | tuple m n fs ih =>
    simp only [Buf.comp, steady]
    induction fs with
    | nil => rfl
    | cons x xs ihx => obtain ⟨t, l, v⟩ := x; simp_all [-Bool.forall_bool, Buf.compTup, steadyTup]
  | recordTuple m n fs ih =>
    simp only [Buf.comp, steady]
    induction fs with
    | nil => rfl
    | cons x xs ihx => obtain ⟨t, l, i, v⟩ := x; simp_all [-Bool.forall_bool, Buf.compRT, steadyRT]
  | _ => simp_all [-Bool.forall_bool, Buf.comp, steady]

theorem same_norm_comp (v : V) (hv : steady false v = true) : Same env (toks v) (toks (norm (Buf.comp v))) := by
  intro s hs
  obtain ⟨h1, _⟩ := same_norm (env := env) (Buf.comp v) (by rw [steady_comp]; exact hv) s hs
  obtain ⟨_, h2⟩ := same_norm (env := env) v hv s hs
  exact ⟨by rw [h1, Buf.toks_comp]; exact run_computed _ s, h2⟩

end

end Sval.Json
