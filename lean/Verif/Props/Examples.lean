import Verif.Examples.Recursive
import Verif.Props.Provided

set_option autoImplicit false

/-!
# Properties of the example streams: C98
-/

namespace Sval

open Nested Examples

/-! ## What each of them prints -/

/-- C98. The flat example stream prints every value, and never fails or panics for one. Text is printed fragment by
fragment. -/
theorem C98_flat (env : Fmt.Env) (float : UInt64 → Text) (v : V) (o : Text) :
    drive (flatStream env float) (valueOf v) o = .done true (o ++ shown (flatText env) float v) := by
  have h := prints_lowV (env := env) (float := float) v o
  rw [valueOf, drive_ofToks, run_flatStream, lower_toks, h]
  rfl

/-- C98. The recursive example stream prints every value that recursive streams support, deep enough calls provided. Text is
printed as a whole. -/
theorem C98_recursive (env : Fmt.Env) (float : UInt64 → Text) (v : V) (hv : supported v = true) :
    ∃ N, ∀ k, N ≤ k → ∀ o, recStream env float k (valueOf v) o = .ok (o ++ shown (recText env) float v) := by
  obtain ⟨N, h⟩ := puts_gets (env := env) (float := float) _ (Nested.lower {} (seen v)) (Nat.le_refl _)
    (by rw [(supported_lower _).1, supported_seen]; exact hv) ⟨false, valueOf v⟩ rfl (C61 {} v hv false)
  rw [(shown_lower _).1, shown_seen] at h
  exact ⟨N, fun k hk o => h k k hk hk o⟩

/-- C98. Whatever code does with the flat example stream, no call fails or panics, and what is printed stays. -/
theorem C98_flat_any (env : Fmt.Env) (float : UInt64 → Text) (p : Prog) (o : Text) :
    (∀ t o, ∃ s, flatStream env float t o = .ok (o ++ s)) ∧ ∃ b s, drive (flatStream env float) p o = .done b (o ++ s) := by
  have key : ∀ t o, ∃ s, flatStream env float t o = .ok (o ++ s) := by
    have hn : ∀ ts : List Token, (∀ t ∈ ts, ∀ o, ∃ s, flatStep env float t o = .ok (o ++ s)) → ∀ o, ∃ s, run (flatStep env float) ts o = .ok (o ++ s) := by
      intro ts
      induction ts with
      | nil => intro _ o; exact ⟨[], by simp [run]⟩
      | cons t ts ih =>
        intro h o
        obtain ⟨s, hs⟩ := h t (by simp) o
        obtain ⟨s', hs'⟩ := ih (fun t ht => h t (by simp [ht])) (o ++ s)
        exact ⟨s ++ s', by rw [run_cons, hs]; simp only [Res.bind]; rw [hs', List.append_assoc]⟩
    intro t
    refine hn _ fun u hu o => ?_
    have hu := native_tok (c := Caps.minimal) t u hu
    cases u with
    | seqValueBegin => exact ⟨[], by simp [flatStep]⟩
    | int t v => cases t <;> first | (simp [Caps.native, Caps.minimal] at hu; done) | exact ⟨_, rfl⟩
    | _ => first | exact ⟨_, rfl⟩ | (simp [Caps.native, Caps.minimal] at hu)
  refine ⟨key, ?_⟩
  have h1 := drive_no_panic (flatStream env float) (fun t s => by obtain ⟨u, hu⟩ := key t s; rw [hu]; simp) p o
  have h2 := drive_inv (flatStream env float) (fun s => o <+: s) (fun t s hs => by
    obtain ⟨u, hu⟩ := key t s
    rw [hu]
    exact hs.trans (List.prefix_append s u)) p o (List.prefix_refl o)
  cases hd : drive (flatStream env float) p o with
  | panicked => exact absurd hd h1
  | done b s =>
    rw [hd] at h2
    obtain ⟨t, rfl⟩ := h2
    exact ⟨b, t, rfl⟩

/-! ## Where they print the same -/

namespace Examples

mutual
/-- The texts of a value: each in the fragments it comes in. -/
def texts : V → List (List Text)
  | .int t v => if t ∈ [.i8, .i16, .i32, .i64] ∨ IntTy.i64.fits v then [] else [intDecFrags v]
  | .text _ fs => [fs.map Frag.content]
  | .seq _ xs => textsSeq xs
  | .map _ kvs => textsMap kvs
  | .tag m =>
    if m.tag = some tags.RUST_OPTION_NONE then []
    else
      match m.label with
      | some l => [[l.text]]
      | none => []
  | .tagged _ v => texts v
  | .enum _ v => texts v
  | .record _ _ fs => textsRec fs
  | .tuple _ _ fs => textsTup fs
  | .recordTuple _ _ fs => textsRT fs
  | .hint _ v => texts v
  | _ => []
def textsSeq : List V → List (List Text)
  | [] => []
  | x :: xs => texts x ++ textsSeq xs
def textsMap : List (V × V) → List (List Text)
  | [] => []
  | (k, v) :: r => texts k ++ texts v ++ textsMap r
def textsRec : List (Option Tag × Label × V) → List (List Text)
  | [] => []
  | (_, l, v) :: r => [l.text] :: texts v ++ textsRec r
def textsTup : List (Option Tag × Index × V) → List (List Text)
  | [] => []
  | (_, _, v) :: r => texts v ++ textsTup r
def textsRT : List (Option Tag × Label × Index × V) → List (List Text)
  | [] => []
  | (_, l, _, v) :: r => [l.text] :: texts v ++ textsRT r
end

/-- A character that is printed as it is although it extends the one before. -/
def joins (env : Fmt.Env) (c : Char) : Prop :=
  env.extended c = true ∧ env.printable c = true ∧ c ∉ ['\x00', '\t', '\r', '\n', '\\', '"', '\'']

/-- A text without single quotes. Characters that extend the one before are only at the start of fragments. -/
def plainText (env : Fmt.Env) (fs : List Text) : Prop :=
  ∀ f ∈ fs, (∀ c ∈ f, c ≠ '\'') ∧ ∀ c ∈ f.tail, ¬ joins env c

/-- Two texts are the same just if `p`, and if they are not, nothing that follows makes them the same. -/
def Agrees (a b : Text) (p : Prop) : Prop := ∀ x y : Text, a ++ x = b ++ y ↔ p ∧ x = y

theorem Agrees.refl (a : Text) : Agrees a a True := fun x y => by simp

theorem Agrees.append {a b a' b' : Text} {p p' : Prop} (h : Agrees a b p) (h' : Agrees a' b' p') :
    Agrees (a ++ a') (b ++ b') (p ∧ p') := by
  intro x y
  rw [List.append_assoc, List.append_assoc, h, h', and_assoc]

theorem Agrees.iff {a b : Text} {p q : Prop} (h : Agrees a b p) (hp : p ↔ q) : Agrees a b q := fun x y => by rw [h, hp]

theorem Agrees.eq {a b : Text} {p : Prop} (h : Agrees a b p) : a = b ↔ p := by
  have := h [] []
  simpa using this

section
variable {env : Fmt.Env} {float : UInt64 → Text}

theorem agrees_char (c : Char) : Agrees (Fmt.escapeDebug env c) (if c = '\'' then [c] else Fmt.escapeDebug env c) (c ≠ '\'') := by
  intro x y
  by_cases h : c = '\''
  · subst h
    simp [Fmt.escapeDebug]
  · simp [h]

theorem agrees_later (c : Char) : Agrees (Fmt.escapeDebug { env with extended := fun _ => false } c)
    (if c = '\'' then [c] else Fmt.escapeDebug env c) (c ≠ '\'' ∧ ¬ joins env c) := by
  intro x y
  by_cases h : c = '\''
  · subst h
    simp [Fmt.escapeDebug]
  · by_cases hs : c ∈ ['\x00', '\t', '\r', '\n', '\\', '"', '\'']
    · simp only [List.mem_cons, List.not_mem_nil, or_false] at hs
      have hj : ¬ joins env c := by simp [joins, hs]
      rcases hs with rfl | rfl | rfl | rfl | rfl | rfl | rfl <;> simp_all [Fmt.escapeDebug]
    · simp only [List.mem_cons, List.not_mem_nil, or_false, not_or] at hs
      obtain ⟨h1, h2, h3, h4, h5, h6, h7⟩ := hs
      cases he : env.extended c <;> cases hp : env.printable c <;>
        simp [Fmt.escapeDebug, joins, h1, h2, h3, h4, h5, h6, h7, he, hp, Fmt.escapeUnicode]

theorem agrees_flatMap {α : Type} (L : List α) (f g : α → Text) (p : α → Prop) (h : ∀ x ∈ L, Agrees (f x) (g x) (p x)) :
    Agrees (L.flatMap f) (L.flatMap g) (∀ x ∈ L, p x) := by
  induction L with
  | nil => exact (Agrees.refl []).iff (by simp)
  | cons x L ih =>
    simp only [List.flatMap_cons]
    exact ((h x (by simp)).append (ih fun y hy => h y (by simp [hy]))).iff (by simp)

theorem agrees_text (fs : List Text) : Agrees (flatText env fs) (recText env fs) (plainText env fs) := by
  have hf : ∀ f ∈ fs, Agrees (escapeStr env f) (f.flatMap fun c => if c = '\'' then [c] else Fmt.escapeDebug env c)
      ((∀ c ∈ f, c ≠ '\'') ∧ ∀ c ∈ f.tail, ¬ joins env c) := by
    intro f _
    cases f with
    | nil => exact (Agrees.refl []).iff (by simp)
    | cons c r =>
      simp only [escapeStr, List.flatMap_cons]
      refine ((agrees_char c).append (agrees_flatMap r _ _ _ fun c _ => agrees_later c)).iff ?_
      simp only [List.mem_cons, forall_eq_or_imp, List.tail_cons]
      constructor
      · rintro ⟨h1, h2⟩
        exact ⟨⟨h1, fun c hc => (h2 c hc).1⟩, fun c hc => (h2 c hc).2⟩
      · rintro ⟨⟨h1, h2⟩, h3⟩
        exact ⟨h1, fun c hc => ⟨h2 c hc, h3 c hc⟩⟩
  have := ((Agrees.refl (t! "\"")).append (agrees_flatMap fs _ _ _ hf)).append (Agrees.refl (t! "\""))
  have e : recText env fs = t! "\"" ++ (fs.flatMap fun f => f.flatMap fun c => if c = '\'' then [c] else Fmt.escapeDebug env c) ++ t! "\"" := by
    simp only [recText, Rust.debugStr]
    congr 2
    clear this hf
    induction fs with
    | nil => rfl
    | cons f fs ih => simp only [List.flatten_cons, List.flatMap_append, List.flatMap_cons, ih]
  rw [e]
  exact this.iff (by simp [plainText])

theorem agrees_list {α : Type} (L : List α) (f g : α → Text) (p : α → Prop) (h : ∀ x ∈ L, Agrees (f x) (g x) (p x)) :
    Agrees (list (L.map f)) (list (L.map g)) (∀ x ∈ L, p x) := by
  have := ((Agrees.refl (t! "[ ")).append (agrees_flatMap L (fun x => f x ++ t! ", ") (fun x => g x ++ t! ", ") _
    fun x hx => (h x hx).append (Agrees.refl _))).append (Agrees.refl (t! "]"))
  simp only [list, List.flatMap_map]
  exact this.iff (by simp)

theorem agrees_pair {a b a' b' : Text} {p p' : Prop} (h : Agrees a b p) (h' : Agrees a' b' p') :
    Agrees (list [a, a']) (list [b, b']) (p ∧ p') := by
  have := agrees_list [(a, b, p), (a', b', p')] (fun x => x.1) (fun x => x.2.1) (fun x => x.2.2) (by simp [h, h'])
  exact this.iff (by simp)

theorem agrees_shown (v : V) : Agrees (shown (flatText env) float v) (shown (recText env) float v) (∀ fs ∈ texts v, plainText env fs) := by
  induction v using V.ind with
  | int t n =>
    simp only [shown, int, texts]
    split
    · exact (Agrees.refl _).iff (by simp)
    · exact (agrees_text _).iff (by simp)
  | text n fs => exact (agrees_text _).iff (by simp [texts])
  | tag m =>
    simp only [shown, texts]
    split
    · exact (Agrees.refl _).iff (by simp)
    · cases m.label with
      | none => exact (Agrees.refl _).iff (by simp)
      | some l => exact (agrees_text _).iff (by simp)
  | tagged m v ih => exact ih
  | enum m v ih => exact ih
  | hint t v ih => exact ih
  | seq n xs ih =>
    simp only [shown, shownSeq_map]
    refine (agrees_list xs _ _ _ ih).iff ?_
    simp only [texts]
    clear ih
    induction xs with
    | nil => simp [textsSeq]
    | cons x xs ih => simp only [textsSeq, List.forall_mem_append, List.forall_mem_cons, ih]
  | map n xs ih =>
    simp only [shown, shownMap_map]
    refine (agrees_list xs _ _ _ fun x hx => agrees_pair (ih x hx).1 (ih x hx).2).iff ?_
    simp only [texts]
    clear ih
    induction xs with
    | nil => simp [textsMap]
    | cons x xs ih => simp only [textsMap, List.forall_mem_append, List.forall_mem_cons, ih]
  | record m n xs ih =>
    simp only [shown, shownRec_map]
    refine (agrees_list xs _ _ _ fun x hx => agrees_pair (agrees_text _) (ih x hx)).iff ?_
    simp only [texts]
    clear ih
    induction xs with
    | nil => simp [textsRec]
    | cons x xs ih => simp only [textsRec, List.forall_mem_append, List.forall_mem_cons, ih, List.cons_append, and_assoc]
  | tuple m n xs ih =>
    simp only [shown, shownTup_map]
    refine (agrees_list xs _ _ _ ih).iff ?_
    simp only [texts]
    clear ih
    induction xs with
    | nil => simp [textsTup]
    | cons x xs ih => simp only [textsTup, List.forall_mem_append, List.forall_mem_cons, ih]
  | recordTuple m n xs ih =>
    simp only [shown, shownRT_map]
    refine (agrees_list xs _ _ _ fun x hx => agrees_pair (agrees_text _) (ih x hx)).iff ?_
    simp only [texts]
    clear ih
    induction xs with
    | nil => simp [textsRT]
    | cons x xs ih => simp only [textsRT, List.forall_mem_append, List.forall_mem_cons, ih, List.cons_append, and_assoc]
  | _ => exact (Agrees.refl _).iff (by simp [texts])

end

end Examples

/-- C98. For a value that recursive streams support, the two example streams print the same text just if there are no single
quotes in the texts, labels and so on of the value, and if characters that extend the one before are only at the start of
fragments. -/
theorem C98_exact (env : Fmt.Env) (float : UInt64 → Text) (v : V) (hv : supported v = true) :
    ∃ t u N, (∀ o, drive (flatStream env float) (valueOf v) o = .done true (o ++ t)) ∧
      (∀ k, N ≤ k → ∀ o, recStream env float k (valueOf v) o = .ok (o ++ u)) ∧
      (t = u ↔ ∀ fs ∈ texts v, plainText env fs) := by
  obtain ⟨N, h⟩ := C98_recursive env float v hv
  exact ⟨_, _, N, C98_flat env float v, h, (agrees_shown v).eq⟩

/-- C98. The two example streams print the same text for values without single quotes and combining characters. -/
theorem C98_same_partial (env : Fmt.Env) (float : UInt64 → Text) (v : V) (hv : supported v = true)
    (ht : ∀ fs ∈ texts v, ∀ f ∈ fs, ∀ c ∈ f, c ≠ '\'' ∧ env.extended c = false) :
    ∃ t N, (∀ o, drive (flatStream env float) (valueOf v) o = .done true (o ++ t)) ∧
      (∀ k, N ≤ k → ∀ o, recStream env float k (valueOf v) o = .ok (o ++ t)) := by
  obtain ⟨t, u, N, h1, h2, h3⟩ := C98_exact env float v hv
  have := h3.2 fun fs hfs f hf => ⟨fun c hc => (ht fs hfs f hf c hc).1, fun c hc hj => by
    have := (ht fs hfs f hf c (List.mem_of_mem_tail hc)).2
    exact Bool.false_ne_true (this.symm.trans hj.1)⟩
  exact ⟨t, N, h1, this ▸ h2⟩

section
/-- Text that `core` would print for the floats of these examples, and its tables for their characters. -/
def exampleEnv : Fmt.Env := ⟨fun _ => [], fun _ => [], fun c => c == '\u0301', fun _ => true⟩
def exampleFloat (_ : UInt64) : Text := t! "1.5"

/-- A record with an option, an enum, a map with a big number, and bytes. -/
def printedExample : V :=
  .record { label := some (.new (t! "S")) } (some 4)
    [(none, .new (t! "id"), .enum {} (.tagged { label := some (.new (t! "Some")) } (.int .u8 42))),
     (none, .newComputed (t! "name"), .text none [.borrowed (t! "a\n"), .computed (t! "\"b")]),
     (none, .new (t! "map"), .map none [(.int .u64 18446744073709551615, .f32 0x3FC00000)]),
     (none, .new (t! "rest"), .tuple {} none
       [(none, ⟨0, none⟩, .binary none [.borrowed [1, 255]]), (none, ⟨1, none⟩, .enum {} (.tag { label := some (.new (t! "None")), tag := some tags.RUST_OPTION_NONE }))])]

/-- It meets the conditions. -/
example : supported printedExample = true ∧
    ∀ fs ∈ texts printedExample, ∀ f ∈ fs, ∀ c ∈ f, c ≠ '\'' ∧ exampleEnv.extended c = false := by decide +kernel

/-- What is printed. -/
example : shown (flatText exampleEnv) exampleFloat printedExample =
    t! "[ [ \"id\", 42, ], [ \"name\", \"a\\n\\\"b\", ], [ \"map\", [ [ \"18446744073709551615\", 1.5, ], ], ], [ \"rest\", [ [ 1, 255, ], null, ], ], ]" := by
  decide +kernel

/-- A text with a combining character that is in a fragment of its own is printed the same. -/
example : plainText exampleEnv [t! "e", t! "\u0301"] ∧ ¬ plainText exampleEnv [t! "e\u0301"] := by
  constructor
  · intro f hf
    simp only [List.mem_cons, List.not_mem_nil, or_false] at hf
    rcases hf with rfl | rfl <;> exact ⟨by decide, by simp⟩
  · intro h
    exact (h _ (List.mem_singleton.2 rfl)).2 '\u0301' (by decide) (by unfold joins; decide)

end

/-- C98. A text with a single quote: the flat stream escapes it, the recursive stream does not. -/
theorem C98_fails_quote (env : Fmt.Env) (float : UInt64 → Text) (hp : ∀ c, env.printable c = true) (he : ∀ c ∈ t! "its", env.extended c = false) :
    ∃ v, supported v = true ∧ ∃ N, ∀ k, N ≤ k →
      drive (flatStream env float) (valueOf v) [] = .done true (t! "\"it\\'s\"") ∧
      recStream env float k (valueOf v) [] = .ok (t! "\"it's\"") := by
  refine ⟨.text none [.borrowed (t! "it's")], rfl, ?_⟩
  obtain ⟨N, h⟩ := C98_recursive env float (.text none [.borrowed (t! "it's")]) rfl
  refine ⟨N, fun k hk => ⟨?_, ?_⟩⟩
  · rw [C98_flat]
    simp [shown, flatText, escapeStr, Frag.content, Fmt.escapeDebug, hp, he]
  · rw [h k hk]
    simp [shown, recText, Rust.debugStr, Frag.content, Fmt.escapeDebug, hp, he]

/-- C98. A combining character: the flat stream prints it as it is, the recursive stream escapes it. -/
theorem C98_fails_combining :
    ∃ v, supported v = true ∧ ∃ N, ∀ k, N ≤ k →
      drive (flatStream exampleEnv exampleFloat) (valueOf v) [] = .done true (t! "\"e\u0301\"") ∧
      recStream exampleEnv exampleFloat k (valueOf v) [] = .ok (t! "\"e\\u{301}\"") := by
  refine ⟨.text none [.borrowed (t! "e\u0301")], rfl, ?_⟩
  obtain ⟨N, h⟩ := C98_recursive exampleEnv exampleFloat (.text none [.borrowed (t! "e\u0301")]) rfl
  refine ⟨N, fun k hk => ⟨?_, ?_⟩⟩
  · rw [C98_flat]
    decide +kernel
  · rw [h k hk]
    decide +kernel

/-- C98. Enums that recursive streams do not support: the flat stream prints them. -/
theorem C98_fails_enum (env : Fmt.Env) (float : UInt64 → Text) :
    drive (flatStream env float) (valueOf (.enum {} .null)) [] = .done true (t! "null") ∧
    (∀ k, 1 ≤ k → recStream env float k (valueOf (.enum {} .null)) [] = .err () []) ∧
    drive (flatStream env float) (valueOf (.enum {} (.enum {} (.tuple {} none [])))) [] = .done true (t! "[ ]") ∧
    (∀ k, 1 ≤ k → recStream env float k (valueOf (.enum {} (.enum {} (.tuple {} none [])))) [] = .panic) := by
  refine ⟨C98_flat env float _ [], ?_, C98_flat env float _ [], ?_⟩ <;>
  · intro k hk
    obtain ⟨k, rfl⟩ : ∃ j, k = j + 1 := ⟨k - 1, by omega⟩
    rfl

end Sval
