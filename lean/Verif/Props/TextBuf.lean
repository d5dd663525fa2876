import Verif.Buffer.AsValue
import Verif.Props.Fragments
import Verif.Props.Buffer
import Verif.Props.Json
import Verif.Serde.Round

set_option autoImplicit false

/-!
# `TextBuf` and `BinaryBuf` as values: C85
-/

namespace Sval
open Buf Nested

/-- A fragment that is lent, or not. -/
def fragOf {α : Type} (lent : Bool) (s : α) : Frag α := if lent then .borrowed s else .computed s

/-- The value that is one text, or one piece of bytes. -/
def oneText (lent : Bool) (s : Text) : V := .text (some (utf8Len s)) [fragOf (α := Text) lent s]
def oneBinary (lent : Bool) (s : Bytes) : V := .binary (some s.length) [fragOf (α := Bytes) lent s]

/-- Code that does to any stream, also one that fails, what the value `v` does. `c`: the stream is behind
`value_computed`. -/
def StreamsAs (p : Prog) (v : V) : Prop :=
  ∀ (σ : Type) (S : Token → σ → σ × Bool) (c : Bool) (s : σ),
    exec S p (if c then .computed .base else .base) s = exec S (valueOf v) (if c then .computed .base else .base) s

theorem streamsAs_of_flat {q : List Item} {v : V} (h : ∀ c, flat q c = flat ((toks v).map .tok) c) :
    StreamsAs (prog q) v := by
  intro σ S c s
  have h1 := Serde.exec_calls S q c s
  have h2 := Serde.exec_calls S ((toks v).map Item.tok) c s
  rw [h c, ← h2, prog_toks] at h1
  exact h1

/-- C85. As a value a buffer is its text, borrowed; as a `ValueRef` its text is borrowed for as long as what was pushed
only if it is one piece of that. -/
theorem C85_text (c : Cow Char) :
    StreamsAs (prog c.textItems) (oneText true c.content) ∧
      StreamsAs (prog c.textRefItems) (oneText c.asBorrowed.isSome c.content) := by
  constructor
  · exact streamsAs_of_flat fun b => by cases b <;> rfl
  · exact streamsAs_of_flat fun b => by cases c <;> cases b <;> rfl

/-- C85. The same of bytes. -/
theorem C85_binary (c : Cow UInt8) :
    StreamsAs (prog c.binaryItems) (oneBinary true c.content) ∧
      StreamsAs (prog c.binaryRefItems) (oneBinary c.asBorrowed.isSome c.content) := by
  constructor
  · exact streamsAs_of_flat fun b => by cases b <;> rfl
  · exact streamsAs_of_flat fun b => by cases c <;> cases b <;> rfl

theorem StreamsAs.base {p : Prog} {v : V} (h : StreamsAs p v) {σ : Type} (S : Token → σ → σ × Bool) (s : σ) :
    exec S p .base s = exec S (valueOf v) .base s := h σ S false s

theorem StreamsAs.collectText {p : Prog} {v : V} (h : StreamsAs p v) (alloc : Bool) :
    collectText alloc p = collectText alloc (valueOf v) := by rw [Buf.collectText, h.base]; rfl

theorem StreamsAs.collectBinary {p : Prog} {v : V} (h : StreamsAs p v) (alloc : Bool) :
    collectBinary alloc p = collectBinary alloc (valueOf v) := by rw [Buf.collectBinary, h.base]; rfl

theorem collectText_one (alloc lent : Bool) (s : Text) (h : alloc = true ∨ lent = true) :
    collectText alloc (valueOf (oneText lent s)) = .ok (if lent then .borrowed s else .owned s) := by
  cases alloc <;> cases lent <;> first | (exact absurd h (by decide)) | rfl

theorem collectBinary_one (alloc lent : Bool) (s : Bytes) (h : alloc = true ∨ lent = true) :
    collectBinary alloc (valueOf (oneBinary lent s)) = .ok (if lent then .borrowed s else .owned s) := by
  cases alloc <;> cases lent <;> first | (exact absurd h (by decide)) | rfl

/-- C85. A buffer collected again, through its `ValueRef`, is the same buffer, with `alloc` or, if it can exist there,
without; through `Value`, it is its content, borrowed. -/
theorem C85_collect (alloc : Bool) :
    (∀ c : Cow Char, (alloc = true ∨ c.asBorrowed.isSome = true) → collectText alloc (prog c.textRefItems) = .ok c) ∧
    (∀ c : Cow UInt8, (alloc = true ∨ c.asBorrowed.isSome = true) →
      collectBinary alloc (prog c.binaryRefItems) = .ok c) ∧
    (∀ c : Cow Char, collectText alloc (prog c.textItems) = .ok (.borrowed c.content)) ∧
    (∀ c : Cow UInt8, collectBinary alloc (prog c.binaryItems) = .ok (.borrowed c.content)) := by
  refine ⟨fun c h => ?_, fun c h => ?_, fun c => ?_, fun c => ?_⟩
  · rw [(C85_text c).2.collectText, collectText_one _ _ _ h]; cases c <;> rfl
  · rw [(C85_binary c).2.collectBinary, collectBinary_one _ _ _ h]; cases c <;> rfl
  · rw [(C85_text c).1.collectText, collectText_one _ _ _ (.inr rfl)]; rfl
  · rw [(C85_binary c).1.collectBinary, collectBinary_one _ _ _ (.inr rfl)]; rfl

/-- C85. `Value::to_text` and `Value::to_binary` give the content. -/
theorem C85_casts (c : Cow Char) (d : Cow UInt8) :
    Ext.toText (prog c.textItems) = some c.content ∧ Ext.toBinary (prog d.binaryItems) = some d.content := by
  constructor <;> rfl

theorem StreamsAs.json {p : Prog} {v : V} (h : StreamsAs p v) (env : Json.Env) :
    Json.toString env p = Json.toString env (valueOf v) := by
  simp only [Json.toString, Json.toFmt, h.base]

theorem StreamsAs.fmt {p : Prog} {v : V} (h : StreamsAs p v) (env : Fmt.Env) :
    Fmt.toString env p = Fmt.toString env (valueOf v) := by
  simp only [Fmt.toString, Fmt.toWrite, drive, h.base]

theorem fragOf_content {α : Type} (lent : Bool) (s : α) : (fragOf lent s).content = s := by cases lent <;> rfl

theorem merged_of_pushes {α : Type} {fs : List (Frag (List α))} {c : Cow α}
    (h : fs.foldlM (pushOne true) Cow.new = .ok c) : c = merged fs := by
  rw [pushes_true, show fs.foldl pushFrag (Cow.new : Cow α) = merged fs from merged_foldl [] fs] at h
  cases h; rfl

/-- C85. Whatever was pushed to it, `sval_json` and `sval_fmt` write a buffer as they write the value with those
fragments, and collecting its `ValueRef` gives what collecting that value does. -/
theorem C85_text_fragments (n : Option Nat) (fs : List (Frag Text)) (c : Cow Char)
    (h : fs.foldlM (pushOne true) Cow.new = .ok c) :
    (∀ env, Json.toString env (prog c.textItems) = Json.toString env (valueOf (.text n fs)) ∧
      Json.toString env (prog c.textRefItems) = Json.toString env (valueOf (.text n fs))) ∧
    (∀ env, Fmt.toString env (prog c.textItems) = Fmt.toString env (valueOf (.text n fs)) ∧
      Fmt.toString env (prog c.textRefItems) = Fmt.toString env (valueOf (.text n fs))) ∧
    collectText true (prog c.textRefItems) = collectText true (valueOf (.text n fs)) := by
  have hc := merged_of_pushes h
  have hb : ∀ l, bare (oneText l c.content) = bare (.text n fs) := fun l => by
    simp [oneText, bare, fragsText, fragOf_content, hc, merged_content]
  have hj : ∀ l, Json.join (oneText l c.content) = Json.join (.text n fs) := fun l => by
    simp [oneText, Json.join, fragsText, fragOf_content, hc, merged_content]
  obtain ⟨h1, h2⟩ := C85_text c
  refine ⟨fun env => ⟨?_, ?_⟩, fun env => ⟨?_, ?_⟩, ?_⟩
  · rw [h1.json, (C22_fragments_partial env _ _ (hj _)).1]
  · rw [h2.json, (C22_fragments_partial env _ _ (hj _)).1]
  · rw [h1.fmt, C75_fmt env _ _ (hb _)]
  · rw [h2.fmt, C75_fmt env _ _ (hb _)]
  · rw [(C85_collect true).1 c (.inl rfl), C47_collect_text_partial _ (fun _ _ h => by cases h), hc]; rfl

theorem run_binFrags (fs : List (Frag Bytes)) (s : Coll UInt8) :
    run (binaryCStep true) (lower binaryCCaps (fs.map binFragTok)) s = .ok { s with buf := fs.foldl pushFrag s.buf } := by
  induction fs generalizing s with
  | nil => rfl
  | cons f fs ih =>
    rw [List.map_cons, lower_cons, run_append]
    have : run (binaryCStep true) (Low.tok binaryCCaps (binFragTok f)) s = .ok { s with buf := pushFrag s.buf f } := by
      cases f with
      | borrowed f =>
        have := congrFun (push_true f) s.buf
        show run (binaryCStep true) [.binaryFragment f] s = _
        simp only [run_cons, binaryCStep, this]; rfl
      | computed f =>
        have := congrFun (pushComputed_true f) s.buf
        show run (binaryCStep true) [.binaryFragmentComputed f] s = _
        simp only [run_cons, binaryCStep, this]; rfl
    rw [this, Res.bind_ok, ih]; rfl

theorem collectBinary_frags (n : Option Nat) (fs : List (Frag Bytes)) :
    collectBinary true (valueOf (.binary n fs)) = .ok (merged fs) := by
  have hr : run (binaryCStep true) (lower binaryCCaps (toks (.binary n fs))) {} = .ok { buf := merged fs } := by
    have e : toks (.binary n fs) = .binaryBegin n :: (fs.map binFragTok ++ [.binaryEnd]) := by simp [toks]
    rw [e, lower_cons, lower_append]
    show run (binaryCStep true) (lower binaryCCaps (fs.map binFragTok) ++ [.binaryEnd]) {} = _
    rw [run_append, run_binFrags, Res.bind_ok]
    have hm : fs.foldl pushFrag (Cow.new : Cow UInt8) = merged fs := merged_foldl [] fs
    rw [← hm]; rfl
  rw [collectBinary, valueOf, (exec_stepE binaryCCaps (binaryCStep true) _ _).1 _ hr]
  rfl

/-- C85. The same of bytes. -/
theorem C85_binary_fragments (n : Option Nat) (fs : List (Frag Bytes)) (c : Cow UInt8)
    (h : fs.foldlM (pushOne true) Cow.new = .ok c) :
    (∀ env, Json.toString env (prog c.binaryItems) = Json.toString env (valueOf (.binary n fs)) ∧
      Json.toString env (prog c.binaryRefItems) = Json.toString env (valueOf (.binary n fs))) ∧
    (∀ env, Fmt.toString env (prog c.binaryItems) = Fmt.toString env (valueOf (.binary n fs)) ∧
      Fmt.toString env (prog c.binaryRefItems) = Fmt.toString env (valueOf (.binary n fs))) ∧
    collectBinary true (prog c.binaryRefItems) = collectBinary true (valueOf (.binary n fs)) := by
  have hc := merged_of_pushes h
  have hb : ∀ l, bare (oneBinary l c.content) = bare (.binary n fs) := fun l => by
    simp [oneBinary, bare, fragsBytes, fragOf_content, hc, merged_content]
  have hj : ∀ l, Json.join (oneBinary l c.content) = Json.join (.binary n fs) := fun l => by
    simp [oneBinary, Json.join, fragsBytes, fragOf_content, hc, merged_content]
  obtain ⟨h1, h2⟩ := C85_binary c
  refine ⟨fun env => ⟨?_, ?_⟩, fun env => ⟨?_, ?_⟩, ?_⟩
  · rw [h1.json, (C22_fragments_partial env _ _ (hj _)).1]
  · rw [h2.json, (C22_fragments_partial env _ _ (hj _)).1]
  · rw [h1.fmt, C75_fmt env _ _ (hb _)]
  · rw [h2.fmt, C75_fmt env _ _ (hb _)]
  · rw [(C85_collect true).2.1 c (.inl rfl), collectBinary_frags, hc]

/-- Two fragments: the buffer is one owned text, and as a `ValueRef` is computed. -/
example : [Frag.borrowed (α := Text) (t! "ab"), .computed (t! "\"")].foldlM (pushOne true) Cow.new =
      .ok (.owned (t! "ab\"")) ∧
    toks (oneText false (t! "ab\"")) =
      [.textBegin (some 3), .textFragmentComputed (t! "ab\""), .textEnd] := by decide +kernel
/-- The last fragment of which the others are empty: lent. -/
example : [Frag.computed (α := Text) [], .borrowed (t! "é")].foldlM (pushOne true) Cow.new = .ok (.borrowed (t! "é")) ∧
    toks (oneText true (t! "é")) = [.textBegin (some 2), .textFragment (t! "é"), .textEnd] := by decide +kernel

end Sval
