import Verif.Json.Norm
import Verif.Fmt.Lemmas
import Verif.Serde.Round
import Verif.Buffer.More

set_option autoImplicit false

/-!
# Buffering does not change what is formatted, seen by recursive streams, or serialized

`Buf.norm` and `Buf.comp` only change what `Fmt.layout` and `Nested.seen` do not depend on.
-/

namespace Sval.Through
open Sval Json

theorem own_tag (m : Meta) : (Buf.own m).tag = m.tag := rfl
theorem nested_own (m : Meta) : Nested.own (Buf.own m) = Nested.own m := Nested.own_own m
theorem own_label_text (m : Meta) : (Buf.own m).label.map Label.text = m.label.map Label.text := by
  obtain ⟨t, l, i⟩ := m
  cases l <;> simp [Buf.own, toOwned_text]

theorem name_own (m : Meta) : Fmt.name (Buf.own m) = Fmt.name m := by
  obtain ⟨t, l, i⟩ := m
  cases l <;> simp [Buf.own, Fmt.name, toOwned_text]
theorem labelled_own (m : Meta) (x : Fmt.Out) : Fmt.labelled (Buf.own m) x = Fmt.labelled m x := by
  obtain ⟨t, l, i⟩ := m
  cases l <;> simp [Buf.own, Fmt.labelled, toOwned_text]
theorem recordOut_own (m : Meta) (x : List Fmt.Out) : Fmt.recordOut (Buf.own m) x = Fmt.recordOut m x := by
  obtain ⟨t, l, i⟩ := m
  cases l <;> simp [Buf.own, Fmt.recordOut, toOwned_text]

theorem layout_tagged (env : Fmt.Env) (n : Bool) (m : Meta) (v : V) : Fmt.layout env Fmt.twice n (.tagged m v) =
    match m.label.map Label.text with
    | some l => Fmt.lay .ident l ++ Fmt.parens [Fmt.layout env Fmt.twice (n || decide (m.tag = some tags.NUMBER)) v]
    | none => Fmt.layout env Fmt.twice (n || decide (m.tag = some tags.NUMBER)) v := by
  rw [Fmt.layout]
  cases m.label <;> rfl

theorem comp_content {α : Type} (fs : List (Frag α)) : fs.map (Frag.content ∘ Buf.fragComp) = fs.map Frag.content := by
  refine List.map_congr_left fun f _ => ?_
  cases f <;> rfl

theorem hollow_norm (e : Bool) (v : V) : Fmt.hollow e (Buf.norm v) = Fmt.hollow e v := by
  induction v using V.ind generalizing e with
  | binary h fs => simp [Buf.norm, Fmt.hollow, fragsBytes, Buf.mergedFrag_content]
  | seq m xs _ => cases xs <;> rfl
  | map m kvs _ => cases kvs <;> rfl
  | record m n fs _ => cases fs <;> rfl
  | tuple m n fs _ => cases fs <;> rfl
  | recordTuple m n fs _ => cases fs <;> rfl
  | tagged m v ih => exact ih false
  | hint t v ih => exact ih e
  | _ => rfl

theorem layout_norm (env : Fmt.Env) (v : V) (n : Bool) : Fmt.layout env Fmt.twice n (Buf.norm v) = Fmt.layout env Fmt.twice n v := by
  induction v using V.ind generalizing n with
  | text h fs => simp [Buf.norm, Fmt.layout, fragsText, Buf.mergedFrag_content]
  | binary h fs => simp [Buf.norm, Fmt.layout, fragsBytes, Buf.mergedFrag_content]
  | tag m => simp only [Buf.norm, Fmt.layout, name_own]
  | seq m xs ih =>
    simp only [Buf.norm, Fmt.layout]; congr 1
    induction xs with
    | nil => rfl
    | cons x xs ih' => simp only [Buf.normSeq, Fmt.layoutSeq, ih x (by simp), ih' (fun y hy => ih y (by simp [hy]))]
  | map m kvs ih =>
    simp only [Buf.norm, Fmt.layout]; congr 1
    induction kvs with
    | nil => rfl
    | cons kv r ih' =>
      obtain ⟨k, v⟩ := kv
      simp only [Buf.normMap, Fmt.layoutMap, (ih (k, v) (by simp)).1, (ih (k, v) (by simp)).2, ih' (fun y hy => ih y (by simp [hy]))]
  | record m n fs ih =>
    simp only [Buf.norm, Fmt.layout, recordOut_own]; congr 1
    induction fs with
    | nil => rfl
    | cons f r ih' =>
      obtain ⟨t, l, v⟩ := f
      simp only [Buf.normRec, Fmt.layoutRec, toOwned_text, ih (t, l, v) (by simp), ih' (fun y hy => ih y (by simp [hy]))]
  | tuple m n fs ih =>
    simp only [Buf.norm, Fmt.layout, labelled_own]; congr 2
    induction fs with
    | nil => rfl
    | cons f r ih' =>
      obtain ⟨t, l, v⟩ := f
      simp only [Buf.normTup, Fmt.layoutTup, ih (t, l, v) (by simp), ih' (fun y hy => ih y (by simp [hy]))]
  | recordTuple m n fs ih =>
    simp only [Buf.norm, Fmt.layout, recordOut_own]; congr 1
    induction fs with
    | nil => rfl
    | cons f r ih' =>
      obtain ⟨t, l, i, v⟩ := f
      simp only [Buf.normRT, Fmt.layoutRT, toOwned_text, ih (t, l, i, v) (by simp), ih' (fun y hy => ih y (by simp [hy]))]
  | tagged m v ih => simp only [Buf.norm, layout_tagged, ih, own_tag, own_label_text]; rfl
  | enum m v ih => simp only [Buf.norm, Fmt.layout, ih, Fmt.twice, hollow_norm, name_own]
  | hint t v ih => simp only [Buf.norm, Fmt.layout, ih]
  | _ => rfl

theorem seen_norm (v : V) : Nested.seen (Buf.norm v) = Nested.seen v := by
  induction v using V.ind with
  | text h fs => simp [Buf.norm, Nested.seen, fragsText, Buf.mergedFrag_content]
  | binary h fs => simp [Buf.norm, Nested.seen, fragsBytes, Buf.mergedFrag_content]
  | tag m => simp only [Buf.norm, Nested.seen, nested_own]
  | seq m xs ih =>
    simp only [Buf.norm, Nested.seen]; congr 1
    induction xs with
    | nil => rfl
    | cons x xs ih' => simp only [Buf.normSeq, Nested.seenSeq, ih x (by simp), ih' (fun y hy => ih y (by simp [hy]))]
  | map m kvs ih =>
    simp only [Buf.norm, Nested.seen]; congr 1
    induction kvs with
    | nil => rfl
    | cons kv r ih' =>
      obtain ⟨k, v⟩ := kv
      simp only [Buf.normMap, Nested.seenMap, (ih (k, v) (by simp)).1, (ih (k, v) (by simp)).2, ih' (fun y hy => ih y (by simp [hy]))]
  | record m n fs ih =>
    simp only [Buf.norm, Nested.seen, nested_own]; congr 1
    induction fs with
    | nil => rfl
    | cons f r ih' =>
      obtain ⟨t, l, v⟩ := f
      simp only [Buf.normRec, Nested.seenRec, Nested.toOwned_toOwned, ih (t, l, v) (by simp), ih' (fun y hy => ih y (by simp [hy]))]
  | tuple m n fs ih =>
    simp only [Buf.norm, Nested.seen, nested_own]; congr 1
    induction fs with
    | nil => rfl
    | cons f r ih' =>
      obtain ⟨t, l, v⟩ := f
      simp only [Buf.normTup, Nested.seenTup, ih (t, l, v) (by simp), ih' (fun y hy => ih y (by simp [hy]))]
  | recordTuple m n fs ih =>
    simp only [Buf.norm, Nested.seen, nested_own]; congr 1
    induction fs with
    | nil => rfl
    | cons f r ih' =>
      obtain ⟨t, l, i, v⟩ := f
      simp only [Buf.normRT, Nested.seenRT, Nested.toOwned_toOwned, ih (t, l, i, v) (by simp), ih' (fun y hy => ih y (by simp [hy]))]
  | tagged m v ih => simp only [Buf.norm, Nested.seen, ih, nested_own]
  | enum m v ih => simp only [Buf.norm, Nested.seen, ih, nested_own]
  | hint t v ih => simp only [Buf.norm, Nested.seen, ih]
  | _ => rfl

theorem hollow_comp (e : Bool) (v : V) : Fmt.hollow e (Buf.comp v) = Fmt.hollow e v := by
  induction v using V.ind generalizing e with
  | binary h fs => simp [Buf.comp, Fmt.hollow, fragsBytes, comp_content]
  | seq m xs _ => cases xs <;> rfl
  | map m kvs _ => cases kvs <;> rfl
  | record m n fs _ => cases fs <;> rfl
  | tuple m n fs _ => cases fs <;> rfl
  | recordTuple m n fs _ => cases fs <;> rfl
  | tagged m v ih => exact ih false
  | hint t v ih => exact ih e
  | _ => rfl

theorem layout_comp (env : Fmt.Env) (v : V) (n : Bool) : Fmt.layout env Fmt.twice n (Buf.comp v) = Fmt.layout env Fmt.twice n v := by
  induction v using V.ind generalizing n with
  | text h fs => simp [Buf.comp, Fmt.layout, fragsText, comp_content]
  | binary h fs => simp [Buf.comp, Fmt.layout, fragsBytes, comp_content]
  | seq m xs ih =>
    simp only [Buf.comp, Fmt.layout]; congr 1
    induction xs with
    | nil => rfl
    | cons x xs ih' => simp only [Buf.compSeq, Fmt.layoutSeq, ih x (by simp), ih' (fun y hy => ih y (by simp [hy]))]
  | map m kvs ih =>
    simp only [Buf.comp, Fmt.layout]; congr 1
    induction kvs with
    | nil => rfl
    | cons kv r ih' =>
      obtain ⟨k, v⟩ := kv
      simp only [Buf.compMap, Fmt.layoutMap, (ih (k, v) (by simp)).1, (ih (k, v) (by simp)).2, ih' (fun y hy => ih y (by simp [hy]))]
  | record m n fs ih =>
    simp only [Buf.comp, Fmt.layout]; congr 1
    induction fs with
    | nil => rfl
    | cons f r ih' =>
      obtain ⟨t, l, v⟩ := f
      simp only [Buf.compRec, Fmt.layoutRec, ih (t, l, v) (by simp), ih' (fun y hy => ih y (by simp [hy]))]
  | tuple m n fs ih =>
    simp only [Buf.comp, Fmt.layout]; congr 2
    induction fs with
    | nil => rfl
    | cons f r ih' =>
      obtain ⟨t, l, v⟩ := f
      simp only [Buf.compTup, Fmt.layoutTup, ih (t, l, v) (by simp), ih' (fun y hy => ih y (by simp [hy]))]
  | recordTuple m n fs ih =>
    simp only [Buf.comp, Fmt.layout]; congr 1
    induction fs with
    | nil => rfl
    | cons f r ih' =>
      obtain ⟨t, l, i, v⟩ := f
      simp only [Buf.compRT, Fmt.layoutRT, ih (t, l, i, v) (by simp), ih' (fun y hy => ih y (by simp [hy]))]
  | tagged m v ih => simp only [Buf.comp, layout_tagged, ih]
  | enum m v ih => simp only [Buf.comp, Fmt.layout, ih, Fmt.twice, hollow_comp]
  | hint t v ih => simp only [Buf.comp, Fmt.layout, ih]
  | _ => rfl

theorem seen_comp (v : V) : Nested.seen (Buf.comp v) = Nested.seen v := by
  induction v using V.ind with
  | text h fs => simp [Buf.comp, Nested.seen, comp_content]
  | binary h fs => simp [Buf.comp, Nested.seen, comp_content]
  | seq m xs ih =>
    simp only [Buf.comp, Nested.seen]; congr 1
    induction xs with
    | nil => rfl
    | cons x xs ih' => simp only [Buf.compSeq, Nested.seenSeq, ih x (by simp), ih' (fun y hy => ih y (by simp [hy]))]
  | map m kvs ih =>
    simp only [Buf.comp, Nested.seen]; congr 1
    induction kvs with
    | nil => rfl
    | cons kv r ih' =>
      obtain ⟨k, v⟩ := kv
      simp only [Buf.compMap, Nested.seenMap, (ih (k, v) (by simp)).1, (ih (k, v) (by simp)).2, ih' (fun y hy => ih y (by simp [hy]))]
  | record m n fs ih =>
    simp only [Buf.comp, Nested.seen]; congr 1
    induction fs with
    | nil => rfl
    | cons f r ih' =>
      obtain ⟨t, l, v⟩ := f
      simp only [Buf.compRec, Nested.seenRec, ih (t, l, v) (by simp), ih' (fun y hy => ih y (by simp [hy]))]
  | tuple m n fs ih =>
    simp only [Buf.comp, Nested.seen]; congr 1
    induction fs with
    | nil => rfl
    | cons f r ih' =>
      obtain ⟨t, l, v⟩ := f
      simp only [Buf.compTup, Nested.seenTup, ih (t, l, v) (by simp), ih' (fun y hy => ih y (by simp [hy]))]
  | recordTuple m n fs ih =>
    simp only [Buf.comp, Nested.seen]; congr 1
    induction fs with
    | nil => rfl
    | cons f r ih' =>
      obtain ⟨t, l, i, v⟩ := f
      simp only [Buf.compRT, Nested.seenRT, ih (t, l, i, v) (by simp), ih' (fun y hy => ih y (by simp [hy]))]
  | tagged m v ih => simp only [Buf.comp, Nested.seen, ih]
  | enum m v ih => simp only [Buf.comp, Nested.seen, ih]
  | hint t v ih => simp only [Buf.comp, Nested.seen, ih]
  | _ => rfl

end Sval.Through
