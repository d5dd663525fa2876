import Verif.Buffer.Reach
import Verif.Core.ExtractLemmas
import Verif.Props.Extract

set_option autoImplicit false

/-!
# `TextBuf::collect` and `BinaryBuf::collect`
-/

namespace Sval.Buf

/-- A stream with implemented methods `step` and the defaults, as a stream for `exec`. -/
def stepE {σ : Type} (c : Caps) (step : Token → σ → Res Err σ) (t : Token) (s : σ) : σ × Bool :=
  (run step (Low.tok c t) s).pair s

/-- `TextCollector` and `BinaryCollector`, `buffer/src/fragments.rs:150-153, 361-364`. -/
structure Coll (α : Type) where
  buf : Cow α := .new
  err : Option Err := none
deriving DecidableEq, Repr

/-- `try_catch`, `fail`, `buffer/src/fragments.rs:155-167, 366-381`. -/
def Coll.tryPush {α : Type} (s : Coll α) : Except Err (Cow α) → Res Err (Coll α)
  | .ok b => .ok { s with buf := b }
  | .error e => .err e { s with err := some e }

/-- `fail` with an unsupported kind of value: `buffer/src/fragments.rs:163-167, 377-381`. -/
def Coll.fail {α : Type} (s : Coll α) : Res Err (Coll α) := .err .unsupported { s with err := some .unsupported }

/-- The methods `TextCollector` implements, `buffer/src/fragments.rs:169-217`. -/
def textCStep (alloc : Bool) : Token → Coll Char → Res Err (Coll Char)
  | .textBegin _, s => .ok s
  | .textFragment f, s => s.tryPush (s.buf.push alloc f)
  | .textFragmentComputed f, s => s.tryPush (s.buf.pushComputed alloc f)
  | .textEnd, s => .ok s
  | _, s => s.fail

/-- The methods `BinaryCollector` implements, `buffer/src/fragments.rs:383-451`. It overrides `map_begin`
only; the other map calls are the defaults, which come down to sequence calls and succeed. -/
def binaryCStep (alloc : Bool) : Token → Coll UInt8 → Res Err (Coll UInt8)
  | .binaryBegin _, s => .ok s
  | .binaryFragment f, s => s.tryPush (s.buf.push alloc f)
  | .binaryFragmentComputed f, s => s.tryPush (s.buf.pushComputed alloc f)
  | .binaryEnd, s => .ok s
  | .int .u8 v, s => s.tryPush (s.buf.pushComputed alloc [UInt8.ofNat v.toNat])
  | .seqBegin _, s => .ok s
  | .seqValueBegin, s => .ok s
  | .seqValueEnd, s => .ok s
  | .seqEnd, s => .ok s
  | .mapKeyBegin, s => .ok s
  | .mapKeyEnd, s => .ok s
  | .mapValueBegin, s => .ok s
  | .mapValueEnd, s => .ok s
  | .mapEnd, s => .ok s
  | _, s => s.fail

/-- The methods that `TextCollector` and `BinaryCollector` implement: `buffer/src/fragments.rs:169-217, 383-451`. -/
abbrev textCCaps : Caps := { Caps.minimal with textFragment := true }
abbrev binaryCCaps : Caps := { Caps.minimal with binary := true, binaryFragment := true, u8 := true, map := true }

/-- How `TextBuf::collect` and `BinaryBuf::collect` end. -/
inductive Gathered (α : Type) where
  | ok (c : Cow α)
  | err (e : Err)
  | panic
deriving DecidableEq, Repr

/-- `value.stream(&mut collector).map_err(|_| collector.err.unwrap())?` -/
def gather {α : Type} (r : Coll α × Bool) : Gathered α :=
  if r.2 then .ok r.1.buf
  else match r.1.err with
    | some e => .err e
    | none => .panic

/-- `TextBuf::collect`, `buffer/src/fragments.rs:37-48`. -/
def collectText (alloc : Bool) (p : Prog) : Gathered Char :=
  gather (exec (stepE textCCaps (textCStep alloc)) p .base {})

/-- `BinaryBuf::collect`, `buffer/src/fragments.rs:294-305`. -/
def collectBinary (alloc : Bool) (p : Prog) : Gathered UInt8 :=
  gather (exec (stepE binaryCCaps (binaryCStep alloc)) p .base {})

/-! ## Lemmas -/

theorem exec_stepE {σ : Type} (c : Caps) (step : Token → σ → Res Err σ) (ts : List Token) (s : σ) :
    (∀ s', run step (lower c ts) s = .ok s' → exec (stepE c step) (Prog.ofToks ts) .base s = (s', true)) ∧
    (∀ e s', run step (lower c ts) s = .err e s' →
      exec (stepE c step) (Prog.ofToks ts) .base s = (s', false)) := by
  induction ts generalizing s with
  | nil => simp [Prog.ofToks, exec, lower]
  | cons t ts ih =>
    have hl : lower c (t :: ts) = Low.tok c t ++ lower c ts := rfl
    rw [hl, run_append]
    simp only [Prog.ofToks, exec, Wrapper.tok, stepE]
    cases h : run step (Low.tok c t) s with
    | ok s' => simpa [Res.pair, Res.bind] using ih s'
    | err e s' => simp [Res.pair, Res.bind, exec]
    | panic => simp [Res.bind]

theorem gather_ok {α : Type} (c : Caps) (step : Token → Coll α → Res Err (Coll α)) (ts : List Token)
    (s' : Coll α) (h : run step (lower c ts) {} = .ok s') :
    gather (exec (stepE c step) (Prog.ofToks ts) .base {}) = .ok s'.buf := by
  rw [(exec_stepE c step ts {}).1 s' h]; rfl

theorem gather_err {α : Type} (c : Caps) (step : Token → Coll α → Res Err (Coll α)) (ts : List Token)
    (s' : Coll α) (e e' : Err) (h : run step (lower c ts) {} = .err e s') (he : s'.err = some e') :
    gather (exec (stepE c step) (Prog.ofToks ts) .base {}) = .err e' := by
  rw [(exec_stepE c step ts {}).2 e s' h]
  simp [gather, he]

theorem run_collFrags (fs : List (Frag Text)) (s : Coll Char) :
    run (textCStep true) (fs.map textFragTok) s = .ok { s with buf := fs.foldl pushFrag s.buf } := by
  induction fs generalizing s with
  | nil => simp
  | cons f fs ih =>
    have hs : textCStep true (textFragTok f) s = .ok { s with buf := pushFrag s.buf f } := by
      cases f with
      | borrowed f =>
        simp only [textFragTok, textCStep]
        rw [congrFun (push_true f) s.buf]; rfl
      | computed f =>
        simp only [textFragTok, textCStep]
        rw [congrFun (pushComputed_true f) s.buf]; rfl
    rw [List.map_cons, run_cons, hs, Res.bind_ok, ih]
    rfl

/-- Specification: what a value under its wrappers gives as text, if anything. -/
def textOf : V → Option (Cow Char)
  | .text _ fs => some (merged fs)
  | .int _ n => if IntTy.i64.fits n then none else some (.owned (intDec n))
  | .tag m =>
    if m.tag = some tags.RUST_OPTION_NONE then none
    else m.label.map fun l => if l.backing = .static then .borrowed l.text else .owned l.text
  | _ => none

theorem lower_cons (c : Caps) (t : Token) (ts : List Token) : lower c (t :: ts) = Low.tok c t ++ lower c ts := rfl

theorem run_fail_cons {α : Type} (step : Token → Coll α → Res Err (Coll α)) (t : Token) (ts : List Token)
    (s : Coll α) (h : step t s = s.fail) : run step (t :: ts) s = s.fail := by
  rw [run_cons, h]; rfl

theorem lower_textFrags (fs : List (Frag Text)) :
    lower textCCaps (fs.map textFragTok) = fs.map textFragTok := by
  induction fs with
  | nil => rfl
  | cons f fs ih =>
    rw [List.map_cons, lower_cons, ih]
    cases f <;> rfl

theorem run_textLeaf (v : V) (h1 : ∀ m w, v ≠ .tagged m w) (h2 : ∀ m w, v ≠ .enum m w)
    (h3 : ∀ m w, v ≠ .hint m w) (hf : ∀ u n, v = .int u n → u.fits n = true) :
    run (textCStep true) (lower textCCaps (toks v)) {} =
      match textOf v with
      | some c => .ok { buf := c }
      | none => Coll.fail {} := by
  cases v with
  | null => rfl
  | bool b => rfl
  | f32 b => rfl
  | f64 b => rfl
  | text n fs =>
    have e : toks (.text n fs) = .textBegin n :: (fs.map textFragTok ++ [.textEnd]) := by simp [toks]
    rw [e, lower_cons]
    have hl : lower textCCaps (fs.map textFragTok ++ [.textEnd]) = fs.map textFragTok ++ [.textEnd] := by
      have h := lower_textFrags fs
      unfold lower at h ⊢
      rw [List.flatMap_append, h]; rfl
    rw [hl]
    show run (textCStep true) (fs.map textFragTok ++ [.textEnd]) {} = _
    rw [run_append, run_collFrags, Res.bind_ok]
    have hm : fs.foldl pushFrag (Cow.new : Cow Char) = merged fs := merged_foldl [] fs
    simp only [textOf, ← hm]
    rfl
  | int t n =>
    have hfit := hf t n rfl
    rw [toks, lower_cons]
    have hl : lower textCCaps [] = [] := rfl
    rw [hl, List.append_nil, intTok textCCaps rfl rfl rfl rfl rfl rfl rfl rfl]
    simp only [textOf]
    have hnum : run (textCStep true) (numText n) {} = .ok { buf := .owned (intDec n) } := by
      simp only [numText, intDecFrags, intDec]
      by_cases hn : n < 0
      · rw [if_pos hn, if_pos hn]; rfl
      · rw [if_neg hn, if_neg hn]; rfl
    have key : ∀ b : Bool, run (textCStep true) (if b then [.int .i64 n] else numText n) {} =
        match (if b then none else some (.owned (intDec n)) : Option (Cow Char)) with
        | some c => .ok { buf := c }
        | none => Coll.fail {} := by
      intro b; cases b
      · exact hnum
      · rfl
    by_cases h128 : t = .i128
    · rw [if_pos h128, if_neg (by decide)]; exact key _
    · rw [if_neg h128]
      by_cases hs : Ext.signed t = true
      · rw [if_pos hs]
        have : IntTy.i64.fits n = true := by
          rw [IntTy.fits_iff] at hfit ⊢
          revert hfit hs h128
          cases t <;> simp only [IntTy.min, IntTy.max, Ext.signed] <;>
            first | (intros; constructor <;> omega) | (intros; contradiction)
        have hk := key true
        rw [if_pos rfl, if_pos rfl] at hk
        rw [if_pos this]
        exact hk
      · rw [if_neg hs, if_neg (by decide)]; exact key _
  | binary n fs =>
    have e : toks (.binary n fs) = .binaryBegin n :: (fs.map binFragTok ++ [.binaryEnd]) := by simp [toks]
    rw [e, lower_cons]; exact run_fail_cons _ (.seqBegin n) _ _ rfl
  | seq n xs => simp only [toks]; rw [lower_cons]; exact run_fail_cons _ (.seqBegin n) _ _ rfl
  | map n kvs => simp only [toks]; rw [lower_cons]; exact run_fail_cons _ (.seqBegin n) _ _ rfl
  | tag m =>
    rw [toks, lower_cons]
    have hl : lower textCCaps [] = [] := rfl
    rw [hl, List.append_nil]
    simp only [Low.tok, Low.tag, Low.taggedBegin, Low.taggedEnd, Caps.minimal, Bool.false_eq_true,
      if_false, List.nil_append, List.append_nil, textOf]
    by_cases h : m.tag = some tags.RUST_OPTION_NONE
    · rw [if_pos h, if_pos h]; rfl
    · rw [if_neg h, if_neg h]
      cases hl : m.label with
      | none => rfl
      | some l =>
        simp only [Low.labelValue]
        cases hb : l.backing <;> simp only [Option.map, reduceCtorEq, if_false, if_true, hb] <;> rfl
  | tagged m w => exact absurd rfl (h1 m w)
  | enum m w => exact absurd rfl (h2 m w)
  | hint m w => exact absurd rfl (h3 m w)
  | record m n fs => simp only [toks]; rw [lower_cons]; exact run_fail_cons _ (.seqBegin n) _ _ rfl
  | tuple m n fs => simp only [toks]; rw [lower_cons]; exact run_fail_cons _ (.seqBegin n) _ _ rfl
  | recordTuple m n fs => simp only [toks]; rw [lower_cons]; exact run_fail_cons _ (.seqBegin n) _ _ rfl

/-! ### Binary -/

mutual
/-- Specification: the bytes of a value, if it is made of bytes: binaries, and sequences and tuples
of `u8`s, to any depth. -/
def bytesIn : V → Option Bytes
  | .binary _ fs => some (fragsBytes fs)
  | .int .u8 v => some [UInt8.ofNat v.toNat]
  | .seq _ xs => bytesInSeq xs
  | .tuple _ _ fs => bytesInTup fs
  | .tagged _ v => bytesIn v
  | .enum _ v => bytesIn v
  | .hint _ v => bytesIn v
  | _ => none
def bytesInSeq : List V → Option Bytes
  | [] => some []
  | x :: xs => do return (← bytesIn x) ++ (← bytesInSeq xs)
def bytesInTup : List (Option Tag × Index × V) → Option Bytes
  | [] => some []
  | (_, _, v) :: r => do return (← bytesIn v) ++ (← bytesInTup r)
end

/-- Running the calls adds the bytes, or fails and records that. -/
def Gathers (T : List Token) (o : Option Bytes) : Prop :=
  ∀ s : Coll UInt8, match o with
    | some bs => ∃ s', run (binaryCStep true) (lower binaryCCaps T) s = .ok s' ∧ s'.buf.content = s.buf.content ++ bs
    | none => ∃ s', run (binaryCStep true) (lower binaryCCaps T) s = .err .unsupported s' ∧ s'.err = some .unsupported

theorem lower_append (c : Caps) (a b : List Token) : lower c (a ++ b) = lower c a ++ lower c b := by
  simp [lower]

theorem Gathers.append {T1 T2 : List Token} {o1 o2 : Option Bytes} (h1 : Gathers T1 o1) (h2 : Gathers T2 o2) :
    Gathers (T1 ++ T2) (do return (← o1) ++ (← o2)) := by
  intro s
  rw [lower_append]
  cases o1 with
  | none =>
    obtain ⟨s', h, he⟩ := h1 s
    exact ⟨s', by rw [run_append, h]; rfl, he⟩
  | some b1 =>
    obtain ⟨s', h, hb⟩ := h1 s
    cases o2 with
    | none =>
      obtain ⟨s2, h', he⟩ := h2 s'
      exact ⟨s2, by rw [run_append, h]; exact h', he⟩
    | some b2 =>
      obtain ⟨s2, h', hb2⟩ := h2 s'
      exact ⟨s2, by rw [run_append, h]; exact h', by rw [hb2, hb, List.append_assoc]⟩

theorem Gathers.skip (t : Token) (h : ∀ s, run (binaryCStep true) (Low.tok binaryCCaps t) s = .ok s) :
    Gathers [t] (some []) := by
  intro s
  refine ⟨s, ?_, by simp⟩
  rw [lower_cons]
  simpa [lower] using h s

theorem Gathers.nil : Gathers [] (some []) := fun s => ⟨s, rfl, by simp⟩

theorem Gathers.fail_cons (t : Token) (ts : List Token)
    (h : ∀ s, ∃ r, Low.tok binaryCCaps t = r ∧ run (binaryCStep true) r s = s.fail) : Gathers (t :: ts) none := by
  intro s
  obtain ⟨r, hr, h⟩ := h s
  refine ⟨{ s with err := some .unsupported }, ?_, rfl⟩
  rw [lower_cons, hr, run_append, h]; rfl

theorem Gathers.wrap {T : List Token} {o : Option Bytes} (h : Gathers T o) (b e : Token)
    (hb : ∀ s, run (binaryCStep true) (Low.tok binaryCCaps b) s = .ok s)
    (he : ∀ s, run (binaryCStep true) (Low.tok binaryCCaps e) s = .ok s) :
    Gathers (b :: (T ++ [e])) o := by
  have := (Gathers.skip b hb).append (h.append (Gathers.skip e he))
  cases o <;> simpa using this

theorem gathers_binFrags (fs : List (Frag Bytes)) : Gathers (fs.map binFragTok) (some (fragsBytes fs)) := by
  induction fs with
  | nil => exact .nil
  | cons f fs ih =>
    have h1 : Gathers [binFragTok f] (some f.content) := by
      intro s
      cases f with
      | borrowed f =>
        have := congrFun (push_true f) s.buf
        refine ⟨{ s with buf := pushFrag s.buf (.borrowed f) }, ?_, ?_⟩
        · show run (binaryCStep true) [.binaryFragment f] s = _
          simp only [run_cons, binaryCStep, this]; rfl
        · simp only [pushFrag, Frag.content]
          split
          · next h => rw [List.length_eq_zero_iff.1 h]; rfl
          · rfl
      | computed f =>
        have := congrFun (pushComputed_true f) s.buf
        refine ⟨{ s with buf := pushFrag s.buf (.computed f) }, ?_, rfl⟩
        show run (binaryCStep true) [.binaryFragmentComputed f] s = _
        simp only [run_cons, binaryCStep, this]; rfl
    simpa [fragsBytes] using h1.append ih

theorem gathers_seq (xs : List V) (h : ∀ x ∈ xs, Gathers (toks x) (bytesIn x)) :
    Gathers (toksSeq xs) (bytesInSeq xs) := by
  induction xs with
  | nil => exact .nil
  | cons x xs ih =>
    have := ((h x (by simp)).wrap .seqValueBegin .seqValueEnd (fun _ => rfl) (fun _ => rfl)).append
      (ih fun y hy => h y (by simp [hy]))
    simpa [toksSeq, bytesInSeq] using this

theorem gathers_tup (xs : List (Option Tag × Index × V)) (h : ∀ x ∈ xs, Gathers (toks x.2.2) (bytesIn x.2.2)) :
    Gathers (toksTup xs) (bytesInTup xs) := by
  induction xs with
  | nil => exact .nil
  | cons x xs ih =>
    obtain ⟨t, i, v⟩ := x
    have := ((h (t, i, v) (by simp)).wrap (.tupleValueBegin t i) (.tupleValueEnd t i) (fun _ => rfl)
      (fun _ => rfl)).append (ih fun y hy => h y (by simp [hy]))
    simpa [toksTup, bytesInTup] using this

theorem gathers (v : V) : Gathers (toks v) (bytesIn v) := by
  induction v using V.ind with
  | null => exact .fail_cons _ _ fun s => ⟨_, rfl, rfl⟩
  | bool b => exact .fail_cons _ _ fun s => ⟨_, rfl, rfl⟩
  | int t v =>
    by_cases h8 : t = .u8
    · subst h8
      intro s
      exact ⟨{ s with buf := .owned (s.buf.content ++ [UInt8.ofNat v.toNat]) }, rfl, rfl⟩
    · have hn : bytesIn (.int t v) = none := by cases t <;> simp_all [bytesIn]
      rw [hn]
      refine .fail_cons _ _ fun s => ⟨_, rfl, ?_⟩
      have hnum : run (binaryCStep true) (Low.number binaryCCaps v) s = s.fail := rfl
      have key : ∀ b : Bool, run (binaryCStep true) (if b then [.int .i64 v] else Low.number binaryCCaps v) s = s.fail := by
        intro b; cases b
        · exact hnum
        · rfl
      cases t with
      | u8 => exact absurd rfl h8
      | u16 => exact key _
      | u32 => exact key _
      | u64 => exact key _
      | u128 => exact key _
      | i128 => exact key _
      | _ => rfl
  | f32 b => exact .fail_cons _ _ fun s => ⟨_, rfl, rfl⟩
  | f64 b => exact .fail_cons _ _ fun s => ⟨_, rfl, rfl⟩
  | text n fs =>
    have e : toks (.text n fs) = .textBegin n :: (fs.map textFragTok ++ [.textEnd]) := by simp [toks]
    rw [e]; exact .fail_cons _ _ fun s => ⟨_, rfl, rfl⟩
  | binary n fs =>
    have e : toks (.binary n fs) = .binaryBegin n :: (fs.map binFragTok ++ [.binaryEnd]) := by simp [toks]
    rw [e]; exact (gathers_binFrags fs).wrap _ _ (fun _ => rfl) (fun _ => rfl)
  | seq n xs ih => simpa [toks, bytesIn] using (gathers_seq xs ih).wrap (.seqBegin n) .seqEnd (fun _ => rfl) (fun _ => rfl)
  | map n kvs ih => simp only [toks, bytesIn]; exact .fail_cons _ _ fun s => ⟨_, rfl, rfl⟩
  | tag m =>
    have hn : bytesIn (.tag m) = none := rfl
    rw [hn]
    refine .fail_cons _ _ fun s => ?_
    rcases tagShape binaryCCaps rfl rfl m with h | ⟨l, _, _, _, h⟩ | ⟨l, h⟩ <;> exact ⟨_, h, rfl⟩
  | tagged m v ih => simpa [toks, bytesIn] using ih.wrap (.taggedBegin m) (.taggedEnd m) (fun _ => rfl) (fun _ => rfl)
  | enum m v ih => simpa [toks, bytesIn] using ih.wrap (.enumBegin m) (.enumEnd m) (fun _ => rfl) (fun _ => rfl)
  | record m n fs ih => simp only [toks, bytesIn]; exact .fail_cons _ _ fun s => ⟨_, rfl, rfl⟩
  | tuple m n fs ih =>
    simpa [toks, bytesIn] using (gathers_tup fs ih).wrap (.tupleBegin m n) (.tupleEnd m) (fun _ => rfl) (fun _ => rfl)
  | recordTuple m n fs ih => simp only [toks, bytesIn]; exact .fail_cons _ _ fun s => ⟨_, rfl, rfl⟩
  | hint t v ih =>
    have := (Gathers.skip (.tagHint t) fun _ => rfl).append ih
    simp only [toks, bytesIn]
    cases hb : bytesIn v <;> rw [hb] at this <;> simpa using this

end Sval.Buf
