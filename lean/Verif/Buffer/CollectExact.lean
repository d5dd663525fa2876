import Verif.Buffer.More

set_option autoImplicit false

/-!
# Collecting, with and without `alloc`: lemmas for C47

`buffer/src/fragments.rs:37-48, 155-217, 294-305, 366-451`.
-/

namespace Sval.Buf

/-! ## A collector keeps the error of any call that fails -/

/-- A step either only changes the buffer, or fails and keeps the error. -/
def Keeps {α : Type} (step : Token → Coll α → Res Err (Coll α)) : Prop :=
  ∀ t s, (∃ b, step t s = .ok { s with buf := b }) ∨ (∃ e s', step t s = .err e s' ∧ s'.err = some e)

theorem tryPush_keeps {α : Type} (s : Coll α) (r : Except Err (Cow α)) :
    (∃ b, s.tryPush r = .ok { s with buf := b }) ∨ (∃ e s', s.tryPush r = .err e s' ∧ s'.err = some e) := by
  cases r with
  | ok b => exact .inl ⟨b, rfl⟩
  | error e => exact .inr ⟨e, _, rfl, rfl⟩

theorem textCStep_keeps (alloc : Bool) : Keeps (textCStep alloc) := by
  intro t s
  cases t <;> first
    | exact tryPush_keeps _ _
    | exact .inl ⟨_, rfl⟩
    | exact .inr ⟨_, _, rfl, rfl⟩

theorem binaryCStep_keeps (alloc : Bool) : Keeps (binaryCStep alloc) := by
  intro t s
  cases t with
  | int u n =>
    cases u <;> first
      | exact tryPush_keeps _ _
      | exact .inr ⟨_, _, rfl, rfl⟩
  | _ =>
    first
      | exact tryPush_keeps _ _
      | exact .inl ⟨_, rfl⟩
      | exact .inr ⟨_, _, rfl, rfl⟩

theorem Keeps.run {α : Type} {step : Token → Coll α → Res Err (Coll α)} (k : Keeps step) (ts : List Token)
    (s : Coll α) :
    (∃ b, run step ts s = .ok { s with buf := b }) ∨ (∃ e s', run step ts s = .err e s' ∧ s'.err = some e) := by
  induction ts generalizing s with
  | nil => exact .inl ⟨s.buf, rfl⟩
  | cons t ts ih =>
    rw [run_cons]
    rcases k t s with ⟨b, h⟩ | ⟨e, s', h, he⟩
    · rw [h, Res.bind_ok]; exact ih { s with buf := b }
    · rw [h]; exact .inr ⟨e, s', rfl, he⟩

theorem Keeps.err {α : Type} {step : Token → Coll α → Res Err (Coll α)} (k : Keeps step) (c : Caps) (t : Token)
    (s : Coll α) (h : (stepE c step t s).1.err = none) : s.err = none ∧ (stepE c step t s).2 = true := by
  unfold stepE at *
  rcases k.run (Low.tok c t) s with ⟨b, hr⟩ | ⟨e, s', hr, he⟩
  · rw [hr] at h ⊢; exact ⟨h, rfl⟩
  · rw [hr] at h
    have : s'.err = none := h
    rw [he] at this; cases this

theorem Keeps.exec {α : Type} {step : Token → Coll α → Res Err (Coll α)} (k : Keeps step) (c : Caps)
    (ans : List Token → Token → Bool) (hans : ∀ log t, ans log t = true) (p : Prog) (w : Wrapper) (s : Coll α)
    (l : List Token) (h : (exec (stepE c step) p w s).1.err = none) :
    s.err = none ∧ (exec (stepE c step) p w s).2 = (exec (recorder ans) p w l).2 := by
  induction p generalizing w s l with
  | ret ok => exact ⟨h, rfl⟩
  | call t p ih =>
    simp only [Sval.exec, recorder, hans] at h ⊢
    have h1 := (ih _ w _ (l ++ [w.tok t]) h).1
    have h2 := k.err c (w.tok t) s h1
    rw [h2.2] at h ⊢
    exact ⟨h2.1, (ih true w _ (l ++ [w.tok t]) h).2⟩
  | value v p ihv ih =>
    simp only [Sval.exec] at h ⊢
    have h1 := (ih _ w _ (Sval.exec (recorder ans) v w.valueTarget l).1 h).1
    have h2 := ihv w.valueTarget s l h1
    refine ⟨h2.1, ?_⟩
    rw [← h2.2]
    exact (ih _ w _ _ h).2
  | valueComputed v p ihv ih =>
    simp only [Sval.exec] at h ⊢
    have h1 := (ih _ w _ (Sval.exec (recorder ans) v w.computedTarget l).1 h).1
    have h2 := ihv w.computedTarget s l h1
    refine ⟨h2.1, ?_⟩
    rw [← h2.2]
    exact (ih _ w _ _ h).2

theorem Keeps.gather {α : Type} {step : Token → Coll α → Res Err (Coll α)} (k : Keeps step) (c : Caps)
    (ans : List Token → Token → Bool) (hans : ∀ log t, ans log t = true) (p : Prog)
    (h : gather (Sval.exec (stepE c step) p .base {}) = .panic) :
    (Sval.exec (recorder ans) p .base []).2 = false := by
  unfold Buf.gather at h
  by_cases h2 : (Sval.exec (stepE c step) p .base {}).2 = true
  · rw [if_pos h2] at h; cases h
  · rw [if_neg h2] at h
    cases he : (Sval.exec (stepE c step) p .base {}).1.err with
    | some e => rw [he] at h; cases h
    | none => rw [← (k.exec c ans hans p .base {} [] he).2]; simpa using h2

/-! ## Pushing -/

/-- Fragments pushed in turn. -/
def pushAll {α : Type} (alloc : Bool) : List (Frag (List α)) → Coll α → Res Err (Coll α)
  | [], s => .ok s
  | .borrowed f :: fs, s => (s.tryPush (s.buf.push alloc f)).bind (pushAll alloc fs)
  | .computed f :: fs, s => (s.tryPush (s.buf.pushComputed alloc f)).bind (pushAll alloc fs)

theorem pushAll_append {α : Type} (alloc : Bool) (fs gs : List (Frag (List α))) (s : Coll α) :
    pushAll alloc (fs ++ gs) s = (pushAll alloc fs s).bind (pushAll alloc gs) := by
  induction fs generalizing s with
  | nil => rfl
  | cons f fs ih =>
    cases f with
    | borrowed f =>
      simp only [List.cons_append, pushAll]
      cases s.tryPush (s.buf.push alloc f) <;> simp [Res.bind, ih]
    | computed f =>
      simp only [List.cons_append, pushAll]
      cases s.tryPush (s.buf.pushComputed alloc f) <;> simp [Res.bind, ih]

theorem pushAll_true {α : Type} (fs : List (Frag (List α))) (s : Coll α) :
    pushAll true fs s = .ok { s with buf := fs.foldl pushFrag s.buf } := by
  induction fs generalizing s with
  | nil => rfl
  | cons f fs ih =>
    cases f with
    | borrowed f => simp only [pushAll, congrFun (push_true f) s.buf, Coll.tryPush, Res.bind, ih, List.foldl_cons]
    | computed f => simp only [pushAll, congrFun (pushComputed_true f) s.buf, Coll.tryPush, Res.bind, ih, List.foldl_cons]

/-- Specification: the fragments a buffer that cannot allocate holds: borrowed ones, empty but for the last. -/
def lendable {α : Type} : List (Frag (List α)) → Bool
  | [] => true
  | [.borrowed _] => true
  | .borrowed f :: fs => f.isEmpty && lendable fs
  | .computed _ :: _ => false

/-- Specification: what such a buffer comes to hold. -/
def lastOf {α : Type} (fs : List (Frag (List α))) : List α := (fs.getLast?.map Frag.content).getD []

theorem pushAll_false {α : Type} (fs : List (Frag (List α))) (s : Coll α) :
    (s.buf.content = [] → lendable fs = true →
      pushAll false fs s = .ok { s with buf := if fs.isEmpty then s.buf else .borrowed (lastOf fs) }) ∧
    (lendable fs = false ∨ (s.buf.content ≠ [] ∧ fs ≠ []) →
      ∃ s', pushAll false fs s = .err .noAlloc s' ∧ s'.err = some .noAlloc) := by
  induction fs generalizing s with
  | nil => exact ⟨fun _ _ => rfl, fun h => by simp [lendable] at h⟩
  | cons f fs ih =>
    cases f with
    | computed f =>
      refine ⟨fun _ h => by simp [lendable] at h, fun _ => ⟨_, rfl, rfl⟩⟩
    | borrowed f =>
      by_cases hs : s.buf.content = []
      · have hp : pushAll false (.borrowed f :: fs) s = pushAll false fs { s with buf := .borrowed f } := by
          simp only [pushAll, Cow.push, hs, List.length_nil, if_true, Coll.tryPush, Res.bind]
        rw [hp]
        obtain ⟨i1, i2⟩ := ih { s with buf := .borrowed f }
        cases fs with
        | nil => exact ⟨fun _ _ => rfl, fun h => by simp [lendable, hs] at h⟩
        | cons g gs =>
          have hl : lendable (.borrowed f :: g :: gs) = (f.isEmpty && lendable (g :: gs)) := rfl
          rw [hl]
          cases f with
          | nil =>
            refine ⟨fun _ h => ?_, fun h => i2 ?_⟩
            · rw [i1 rfl (by simpa using h)]
              simp [lastOf]
            · rcases h with h | ⟨h, _⟩
              · exact .inl (by simpa using h)
              · exact absurd hs h
          | cons a as => exact ⟨fun _ h => by simp at h, fun _ => i2 (.inr ⟨by simp [Cow.content], by simp⟩)⟩
      · refine ⟨fun h => absurd h hs, fun _ => ⟨{ s with err := some .noAlloc }, ?_, rfl⟩⟩
        have : ¬ s.buf.content.length = 0 := fun h => hs (List.length_eq_zero_iff.1 h)
        simp only [pushAll, Cow.push, if_neg this, Cow.pushComputed, Bool.false_eq_true, if_false, Coll.tryPush, Res.bind]

/-- Without an allocator, pushing to an empty buffer. -/
theorem pushAll_new {α : Type} (fs : List (Frag (List α))) :
    if lendable fs then pushAll false fs {} = .ok { buf := .borrowed (lastOf fs) }
    else ∃ s', pushAll false fs {} = .err .noAlloc s' ∧ s'.err = some .noAlloc := by
  split
  · next h =>
    rw [(pushAll_false fs {}).1 rfl h]
    cases fs with
    | nil => rfl
    | cons f fs => rfl
  · next h => exact (pushAll_false fs {}).2 (.inl (by simpa using h))

theorem pushAll_keeps {α : Type} (alloc : Bool) (fs : List (Frag (List α))) (s : Coll α) :
    (∃ s', pushAll alloc fs s = .ok s') ∨
      (alloc = false ∧ ∃ s', pushAll alloc fs s = .err .noAlloc s' ∧ s'.err = some .noAlloc) := by
  cases alloc with
  | true => exact .inl ⟨_, pushAll_true fs s⟩
  | false =>
    induction fs generalizing s with
    | nil => exact .inl ⟨_, rfl⟩
    | cons f fs ih =>
      cases f with
      | computed f => exact .inr ⟨rfl, _, rfl, rfl⟩
      | borrowed f =>
        simp only [pushAll, Cow.push, Cow.pushComputed]
        split
        · simpa [Coll.tryPush, Res.bind] using ih { s with buf := .borrowed f }
        · exact .inr ⟨trivial, _, rfl, rfl⟩

/-! ## Text -/

theorem run_collectFrags (alloc : Bool) (fs : List (Frag Text)) (s : Coll Char) :
    run (textCStep alloc) (fs.map textFragTok) s = pushAll alloc fs s := by
  induction fs generalizing s with
  | nil => rfl
  | cons f fs ih =>
    rw [List.map_cons, run_cons]
    cases f with
    | borrowed f =>
      simp only [textFragTok, textCStep, pushAll]
      cases s.tryPush (s.buf.push alloc f) <;> simp [Res.bind, ih]
    | computed f =>
      simp only [textFragTok, textCStep, pushAll]
      cases s.tryPush (s.buf.pushComputed alloc f) <;> simp [Res.bind, ih]

/-- Specification: the fragments of a value that streams as text. -/
def textPieces : V → Option (List (Frag Text))
  | .text _ fs => some fs
  | .int _ n => if IntTy.i64.fits n then none else some [.computed (intDec n)]
  | .tag m =>
    if m.tag = some tags.RUST_OPTION_NONE then none
    else m.label.map fun l => if l.backing = .static then [.borrowed l.text] else [.computed l.text]
  | _ => none

theorem run_textLeaf_false (v : V) (h1 : ∀ m w, v ≠ .tagged m w) (h2 : ∀ m w, v ≠ .enum m w)
    (h3 : ∀ m w, v ≠ .hint m w) (hf : ∀ u n, v = .int u n → u.fits n = true) :
    match textPieces v with
    | some fs =>
      if lendable fs then run (textCStep false) (lower textCCaps (toks v)) {} = .ok { buf := .borrowed (lastOf fs) }
      else ∃ s', run (textCStep false) (lower textCCaps (toks v)) {} = .err .noAlloc s' ∧ s'.err = some .noAlloc
    | none => run (textCStep false) (lower textCCaps (toks v)) {} = Coll.fail {} := by
  cases v with
  | null => rfl
  | bool b => rfl
  | f32 b => rfl
  | f64 b => rfl
  | text n fs =>
    have e : toks (.text n fs) = .textBegin n :: (fs.map textFragTok ++ [.textEnd]) := by simp [toks]
    have hl : lower textCCaps (fs.map textFragTok ++ [.textEnd]) = fs.map textFragTok ++ [.textEnd] := by
      have h := lower_textFrags fs
      unfold lower at h ⊢
      rw [List.flatMap_append, h]; rfl
    have hr : run (textCStep false) (lower textCCaps (toks (.text n fs))) {} =
        (pushAll false fs {}).bind (run (textCStep false) [.textEnd]) := by
      rw [e, lower_cons, hl]
      show run (textCStep false) (fs.map textFragTok ++ [.textEnd]) {} = _
      rw [run_append, run_collectFrags]
    have hp := pushAll_new fs
    simp only [textPieces]
    split
    · next h => rw [if_pos h] at hp; rw [hr, hp]; rfl
    · next h =>
      rw [if_neg h] at hp
      obtain ⟨s', h1, h2⟩ := hp
      exact ⟨s', by rw [hr, h1]; rfl, h2⟩
  | int t n =>
    have hfit := hf t n rfl
    have hl : lower textCCaps [] = [] := rfl
    have e : lower textCCaps (toks (.int t n)) = Low.tok textCCaps (.int t n) := by
      rw [toks, lower_cons, hl, List.append_nil]
    rw [e, intTok textCCaps rfl rfl rfl rfl rfl rfl rfl rfl]
    have hnum : ∃ s', run (textCStep false) (numText n) {} = .err .noAlloc s' ∧ s'.err = some .noAlloc := by
      simp only [numText, intDecFrags]
      by_cases hn : n < 0
      · rw [if_pos hn]; exact ⟨_, rfl, rfl⟩
      · rw [if_neg hn]; exact ⟨_, rfl, rfl⟩
    have key : ∀ b : Bool, match (if b then none else some [.computed (intDec n)] : Option (List (Frag Text))) with
        | some fs =>
          if lendable fs then run (textCStep false) (if b then [.int .i64 n] else numText n) {} = .ok { buf := .borrowed (lastOf fs) }
          else ∃ s', run (textCStep false) (if b then [.int .i64 n] else numText n) {} = .err .noAlloc s' ∧ s'.err = some .noAlloc
        | none => run (textCStep false) (if b then [.int .i64 n] else numText n) {} = Coll.fail {} := by
      intro b; cases b
      · exact hnum
      · rfl
    simp only [textPieces]
    by_cases h128 : t = .i128
    · rw [if_pos h128]; exact key _
    · rw [if_neg h128]
      by_cases hs : Ext.signed t = true
      · rw [if_pos hs]
        have : IntTy.i64.fits n = true := by
          rw [IntTy.fits_iff] at hfit ⊢
          revert hfit hs h128
          cases t <;> simp only [IntTy.min, IntTy.max, Ext.signed] <;>
            first | (intros; constructor <;> omega) | (intros; contradiction)
        rw [if_pos this]
        rfl
      · rw [if_neg hs]; exact key _
  | binary n fs =>
    have e : toks (.binary n fs) = .binaryBegin n :: (fs.map binFragTok ++ [.binaryEnd]) := by simp [toks]
    rw [e, lower_cons]; exact run_fail_cons _ (.seqBegin n) _ _ rfl
  | seq n xs => simp only [toks]; rw [lower_cons]; exact run_fail_cons _ (.seqBegin n) _ _ rfl
  | map n kvs => simp only [toks]; rw [lower_cons]; exact run_fail_cons _ (.seqBegin n) _ _ rfl
  | tag m =>
    have hl : lower textCCaps [] = [] := rfl
    have e : lower textCCaps (toks (.tag m)) = Low.tok textCCaps (.tag m) := by
      rw [toks, lower_cons, hl, List.append_nil]
    rw [e]
    simp only [Low.tok, Low.tag, Low.taggedBegin, Low.taggedEnd, Caps.minimal, Bool.false_eq_true,
      if_false, List.nil_append, List.append_nil, textPieces]
    by_cases h : m.tag = some tags.RUST_OPTION_NONE
    · rw [if_pos h, if_pos h]; rfl
    · rw [if_neg h, if_neg h]
      cases hl : m.label with
      | none => rfl
      | some l =>
        simp only [Low.labelValue]
        cases hb : l.backing <;> simp only [Option.map, reduceCtorEq, if_false, if_true, hb] <;>
          first | rfl | exact ⟨_, rfl, rfl⟩
  | tagged m w => exact absurd rfl (h1 m w)
  | enum m w => exact absurd rfl (h2 m w)
  | hint m w => exact absurd rfl (h3 m w)
  | record m n fs => simp only [toks]; rw [lower_cons]; exact run_fail_cons _ (.seqBegin n) _ _ rfl
  | tuple m n fs => simp only [toks]; rw [lower_cons]; exact run_fail_cons _ (.seqBegin n) _ _ rfl
  | recordTuple m n fs => simp only [toks]; rw [lower_cons]; exact run_fail_cons _ (.seqBegin n) _ _ rfl

/-! ## Binary -/

mutual
/-- Specification: the fragments of a value made of bytes, as `bytesIn`; a `u8` is a computed one. -/
def binPieces : V → Option (List (Frag Bytes))
  | .binary _ fs => some fs
  | .int .u8 v => some [.computed [UInt8.ofNat v.toNat]]
  | .seq _ xs => binPiecesSeq xs
  | .tuple _ _ fs => binPiecesTup fs
  | .tagged _ v => binPieces v
  | .enum _ v => binPieces v
  | .hint _ v => binPieces v
  | _ => none
def binPiecesSeq : List V → Option (List (Frag Bytes))
  | [] => some []
  | x :: xs => do return (← binPieces x) ++ (← binPiecesSeq xs)
def binPiecesTup : List (Option Tag × Index × V) → Option (List (Frag Bytes))
  | [] => some []
  | (_, _, v) :: r => do return (← binPieces v) ++ (← binPiecesTup r)
end

/-- Running the calls pushes the fragments, or fails and keeps the error. -/
def Pushes (a : Bool) (T : List Token) (o : Option (List (Frag Bytes))) : Prop :=
  ∀ s : Coll UInt8, match o with
    | some fs => run (binaryCStep a) (lower binaryCCaps T) s = pushAll a fs s
    | none => ∃ e s', run (binaryCStep a) (lower binaryCCaps T) s = .err e s' ∧ s'.err = some e ∧
        (a = true → e = .unsupported)

theorem Pushes.append {a : Bool} {T1 T2 : List Token} {o1 o2 : Option (List (Frag Bytes))} (h1 : Pushes a T1 o1)
    (h2 : Pushes a T2 o2) : Pushes a (T1 ++ T2) (do return (← o1) ++ (← o2)) := by
  intro s
  rw [lower_append]
  cases o1 with
  | none =>
    obtain ⟨e, s', h, he⟩ := h1 s
    exact ⟨e, s', by rw [run_append, h]; rfl, he⟩
  | some f1 =>
    have h := h1 s
    dsimp only at h
    cases o2 with
    | none =>
      rcases pushAll_keeps a f1 s with ⟨s', hk⟩ | ⟨ha, s', hk, he⟩
      · obtain ⟨e, s2, h', he⟩ := h2 s'
        exact ⟨e, s2, by rw [run_append, h, hk]; exact h', he⟩
      · exact ⟨.noAlloc, s', by rw [run_append, h, hk]; rfl, he, fun h => by rw [ha] at h; cases h⟩
    | some f2 =>
      show run _ _ _ = pushAll a (f1 ++ f2) s
      rw [run_append, h, pushAll_append]
      have : run (binaryCStep a) (lower binaryCCaps T2) = pushAll a f2 := funext h2
      rw [this]

theorem Pushes.skip (a : Bool) (t : Token) (h : ∀ s, run (binaryCStep a) (Low.tok binaryCCaps t) s = .ok s) :
    Pushes a [t] (some []) := by
  intro s
  show run _ _ _ = .ok s
  rw [lower_cons]
  simpa [lower] using h s

theorem Pushes.nil (a : Bool) : Pushes a [] (some []) := fun _ => rfl

theorem Pushes.fail_cons (a : Bool) (t : Token) (ts : List Token)
    (h : ∀ s, ∃ r, Low.tok binaryCCaps t = r ∧ run (binaryCStep a) r s = s.fail) : Pushes a (t :: ts) none := by
  intro s
  obtain ⟨r, hr, h⟩ := h s
  refine ⟨.unsupported, { s with err := some .unsupported }, ?_, rfl, fun _ => rfl⟩
  rw [lower_cons, hr, run_append, h]; rfl

theorem Pushes.wrap {a : Bool} {T : List Token} {o : Option (List (Frag Bytes))} (h : Pushes a T o) (b e : Token)
    (hb : ∀ s, run (binaryCStep a) (Low.tok binaryCCaps b) s = .ok s)
    (he : ∀ s, run (binaryCStep a) (Low.tok binaryCCaps e) s = .ok s) :
    Pushes a (b :: (T ++ [e])) o := by
  have := (Pushes.skip a b hb).append (h.append (Pushes.skip a e he))
  cases o <;> simpa using this

theorem pushes_binFrags (a : Bool) (fs : List (Frag Bytes)) : Pushes a (fs.map binFragTok) (some fs) := by
  induction fs with
  | nil => exact .nil a
  | cons f fs ih =>
    have h1 : Pushes a [binFragTok f] (some [f]) := by
      intro s
      cases f with
      | borrowed f =>
        show run (binaryCStep a) [.binaryFragment f] s = _
        rfl
      | computed f =>
        show run (binaryCStep a) [.binaryFragmentComputed f] s = _
        rfl
    simpa using h1.append ih

theorem pushes_seq (a : Bool) (xs : List V) (h : ∀ x ∈ xs, Pushes a (toks x) (binPieces x)) :
    Pushes a (toksSeq xs) (binPiecesSeq xs) := by
  induction xs with
  | nil => exact .nil a
  | cons x xs ih =>
    have := ((h x (by simp)).wrap .seqValueBegin .seqValueEnd (fun _ => rfl) (fun _ => rfl)).append
      (ih fun y hy => h y (by simp [hy]))
    simpa [toksSeq, binPiecesSeq] using this

theorem pushes_tup (a : Bool) (xs : List (Option Tag × Index × V))
    (h : ∀ x ∈ xs, Pushes a (toks x.2.2) (binPieces x.2.2)) : Pushes a (toksTup xs) (binPiecesTup xs) := by
  induction xs with
  | nil => exact .nil a
  | cons x xs ih =>
    obtain ⟨t, i, v⟩ := x
    have := ((h (t, i, v) (by simp)).wrap (.tupleValueBegin t i) (.tupleValueEnd t i) (fun _ => rfl)
      (fun _ => rfl)).append (ih fun y hy => h y (by simp [hy]))
    simpa [toksTup, binPiecesTup] using this

theorem pushes (a : Bool) (v : V) : Pushes a (toks v) (binPieces v) := by
  induction v using V.ind with
  | null => exact .fail_cons _ _ _ fun s => ⟨_, rfl, rfl⟩
  | bool b => exact .fail_cons _ _ _ fun s => ⟨_, rfl, rfl⟩
  | int t v =>
    by_cases h8 : t = .u8
    · subst h8
      intro s
      rfl
    · have hn : binPieces (.int t v) = none := by cases t <;> simp_all [binPieces]
      rw [hn]
      refine .fail_cons _ _ _ fun s => ⟨_, rfl, ?_⟩
      have hnum : run (binaryCStep a) (Low.number binaryCCaps v) s = s.fail := rfl
      have key : ∀ b : Bool, run (binaryCStep a) (if b then [.int .i64 v] else Low.number binaryCCaps v) s = s.fail := by
        intro b; cases b
        · exact hnum
        · rfl
      cases t with
      | u8 => exact absurd rfl h8
      | u16 => exact key _
      | u32 => exact key _
      | u64 => exact key _
      | u128 => exact key _
      | i128 => exact key _
      | _ => rfl
  | f32 b => exact .fail_cons _ _ _ fun s => ⟨_, rfl, rfl⟩
  | f64 b => exact .fail_cons _ _ _ fun s => ⟨_, rfl, rfl⟩
  | text n fs =>
    have e : toks (.text n fs) = .textBegin n :: (fs.map textFragTok ++ [.textEnd]) := by simp [toks]
    rw [e]; exact .fail_cons _ _ _ fun s => ⟨_, rfl, rfl⟩
  | binary n fs =>
    have e : toks (.binary n fs) = .binaryBegin n :: (fs.map binFragTok ++ [.binaryEnd]) := by simp [toks]
    rw [e]; exact (pushes_binFrags a fs).wrap _ _ (fun _ => rfl) (fun _ => rfl)
  | seq n xs ih =>
    simpa [toks, binPieces] using (pushes_seq a xs ih).wrap (.seqBegin n) .seqEnd (fun _ => rfl) (fun _ => rfl)
  | map n kvs ih => simp only [toks, binPieces]; exact .fail_cons _ _ _ fun s => ⟨_, rfl, rfl⟩
  | tag m =>
    have hn : binPieces (.tag m) = none := rfl
    rw [hn]
    refine .fail_cons _ _ _ fun s => ?_
    rcases tagShape binaryCCaps rfl rfl m with h | ⟨l, _, _, _, h⟩ | ⟨l, h⟩ <;> exact ⟨_, h, rfl⟩
  | tagged m v ih => simpa [toks, binPieces] using ih.wrap (.taggedBegin m) (.taggedEnd m) (fun _ => rfl) (fun _ => rfl)
  | enum m v ih => simpa [toks, binPieces] using ih.wrap (.enumBegin m) (.enumEnd m) (fun _ => rfl) (fun _ => rfl)
  | record m n fs ih => simp only [toks, binPieces]; exact .fail_cons _ _ _ fun s => ⟨_, rfl, rfl⟩
  | tuple m n fs ih =>
    simpa [toks, binPieces] using (pushes_tup a fs ih).wrap (.tupleBegin m n) (.tupleEnd m) (fun _ => rfl) (fun _ => rfl)
  | recordTuple m n fs ih => simp only [toks, binPieces]; exact .fail_cons _ _ _ fun s => ⟨_, rfl, rfl⟩
  | hint t v ih =>
    have := (Pushes.skip a (.tagHint t) fun _ => rfl).append ih
    simp only [toks, binPieces]
    cases hb : binPieces v <;> rw [hb] at this <;> simpa using this

end Sval.Buf
