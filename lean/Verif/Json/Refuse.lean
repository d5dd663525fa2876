import Verif.Json.Main

set_option autoImplicit false

/-!
# Which values the formatter refuses

The only errors of the formatter are those of `map_begin` and `seq_begin` where text has no quotes: in a key, or in a
number or raw JSON. `refused` says of which values that is true, from the value alone; `calm` of which values it is clear
that the formatter does not panic.
-/

namespace Sval.Json

/-! ## Specification -/

/-- The tags for which text has no quotes: numbers and raw JSON. -/
def bareTag (t : Option Tag) : Bool :=
  t = some tags.NUMBER || t = some tags.JSON_VALUE || t = some tags.JSON_NUMBER

/-- Does the value leave a name behind, so that one that follows a key is written as a variant? -/
def leaves (tg : Bool) : V → Bool
  | .binary _ fs => tg && (fragsBytes fs).isEmpty
  | .seq _ xs => leavesSeq tg xs
  | .map _ kvs => leavesMap tg kvs
  | .tag _ => false
  | .tagged m _ | .record m _ _ | .tuple m _ _ | .recordTuple m _ _ => (idOf m).isSome
  | .enum m v => leaves true v || (idOf m).isSome
  | .hint _ v => leaves tg v
  | _ => tg
where
  leavesSeq (tg : Bool) : List V → Bool
    | [] => tg
    | x :: xs => leavesSeq (leaves false x) xs
  leavesMap (tg : Bool) : List (V × V) → Bool
    | [] => tg
    | (k, v) :: r => leavesMap (leaves (leaves false k) v) r

/-- Values that are refused. `named` is true in an enum, or behind a name that was left: there names open a bracket. `quoted`
is false in keys, numbers and raw JSON: there no bracket can be opened. -/
def refused (named quoted : Bool) : V → Bool
  | .binary _ _ => !quoted
  | .seq _ xs => !quoted || refuseds xs
  | .map _ kvs => !quoted || refusedMap kvs
  | .tagged m v =>
    (named && (idOf m).isSome && !(quoted && !bareTag m.tag)) || refused false (quoted && !bareTag m.tag) v
  | .enum m v => (named && (idOf m).isSome && !quoted) || refused true quoted v
  | .record _ _ fs => !quoted || refusedRec fs
  | .tuple _ _ fs => !quoted || refusedTup fs
  | .recordTuple _ _ fs => !quoted || refusedRT fs
  | .hint _ v => refused named quoted v
  | _ => false
where
  refuseds : List V → Bool
    | [] => false
    | x :: xs => refused false true x || refuseds xs
  refusedMap : List (V × V) → Bool
    | [] => false
    | (k, v) :: r => refused false false k || refused (leaves false k) true v || refusedMap r
  refusedRec : List (Option Tag × Label × V) → Bool
    | [] => false
    | (_, _, v) :: r => refused false true v || refusedRec r
  refusedTup : List (Option Tag × Index × V) → Bool
    | [] => false
    | (_, _, v) :: r => refused false true v || refusedTup r
  refusedRT : List (Option Tag × Label × Index × V) → Bool
    | [] => false
    | (_, _, _, v) :: r => refused false true v || refusedRT r

/-- Text without a character of more than one byte. -/
def ascii (t : Text) : Bool := t.all fun c => c.toNat < 128

/-- Values whose numbers in text are ASCII. -/
def calm (num : Bool) : V → Bool
  | .text _ fs => !num || ascii (fragsText fs)
  | .tag m => !num || (m.label.map fun l => ascii l.text).getD true
  | .seq _ xs => calms num xs
  | .map _ kvs => calmMap num kvs
  | .tagged m v =>
    calm (if m.tag = some tags.NUMBER then true else if isSpecialTag m.tag then false else num) v
  | .enum _ v => calm num v
  | .record _ _ fs => calmRec num fs
  | .tuple _ _ fs => calmTup num fs
  | .recordTuple _ _ fs => calmRT num fs
  | .hint _ v => calm num v
  | _ => true
where
  calms (num : Bool) : List V → Bool
    | [] => true
    | x :: xs => calm num x && calms num xs
  calmMap (num : Bool) : List (V × V) → Bool
    | [] => true
    | (k, v) :: r => calm num k && calm num v && calmMap num r
  calmRec (num : Bool) : List (Option Tag × Label × V) → Bool
    | [] => true
    | (_, _, v) :: r => calm num v && calmRec num r
  calmTup (num : Bool) : List (Option Tag × Index × V) → Bool
    | [] => true
    | (_, _, v) :: r => calm num v && calmTup num r
  calmRT (num : Bool) : List (Option Tag × Label × Index × V) → Bool
    | [] => true
    | (_, _, _, v) :: r => calm num v && calmRT num r

/-! ## The flags of the formatter -/

/-- `handler` is `some true` for a number; `bad` that a number in text was not ASCII. -/
structure Flags where
  tagged : Bool
  empty : Bool
  quoted : Bool
  handler : Option Bool
  bad : Bool

namespace Flags

def mapBegin (f : Flags) : Res Unit Flags := if f.quoted then .ok { f with empty := true } else .err () f

def fragment (v : Text) (f : Flags) : Flags := { f with bad := f.bad || (f.handler == some true && !ascii v) }

def tagBegin (m : Meta) (f : Flags) : Res Unit Flags :=
  if f.tagged && (idOf m).isSome then
    if f.quoted then .ok { f with tagged := false, empty := m.label.isSome } else .err () f
  else .ok { f with tagged := false }

def tagEnd (m : Meta) (f : Flags) : Flags := { f with tagged := (idOf m).isSome }

def tagStep (m : Meta) (f : Flags) : Flags :=
  let f := { f with tagged := false, empty := false }
  if m.tag = some tags.RUST_OPTION_NONE then f
  else match m.label with
    | some l => fragment l.text f
    | none => f

def enter (m : Meta) (f : Flags) : Flags :=
  { f with
    quoted := f.quoted && !bareTag m.tag
    handler :=
      if m.tag = some tags.NUMBER then if f.handler.isNone then some true else f.handler
      else if isSpecialTag m.tag then some false else f.handler }

def leave (m : Meta) (f : Flags) : Flags :=
  { f with quoted := f.quoted || bareTag m.tag, handler := if isSpecialTag m.tag then none else f.handler }

def tagIfEmpty (m : Meta) (f : Flags) : Flags := if f.empty then tagStep m f else f

def taggedBegin (m : Meta) (f : Flags) : Res Unit Flags :=
  (tagBegin m (f.enter m)).bind fun f => .ok { f with empty := true }

def taggedEnd (m : Meta) (f : Flags) : Flags := ((f.leave m).tagIfEmpty m).tagEnd m

def enumBegin (m : Meta) (f : Flags) : Res Unit Flags :=
  (tagBegin m f).bind fun f => .ok { f with tagged := true, empty := true }

def closeEnum (m : Meta) (f : Flags) : Flags := if f.tagged then { f with empty := false } else tagEnd m f

def enumEnd (m : Meta) (f : Flags) : Flags := (f.tagIfEmpty m).closeEnum m

/-- What a call does to the flags. -/
def step : Token → Flags → Res Unit Flags
  | .null, f | .bool _, f | .int _ _, f | .f32 _, f | .f64 _, f | .textBegin _, f => .ok { f with empty := false }
  | .textFragmentComputed v, f => .ok (f.fragment v)
  | .textEnd, f | .mapValueBegin, f | .mapValueEnd, f | .seqValueEnd, f | .recordValueEnd _ _, f
  | .tupleValueEnd _ _, f => .ok f
  | .mapBegin _, f | .seqBegin _, f => f.mapBegin
  | .mapKeyBegin, f => .ok { f with quoted := false, tagged := false }
  | .mapKeyEnd, f => .ok { f with quoted := true }
  | .mapEnd, f | .seqEnd, f => .ok { f with empty := false }
  | .seqValueBegin, f | .recordValueBegin _ _, f | .tupleValueBegin _ _, f => .ok { f with tagged := false }
  | .enumBegin m, f => f.enumBegin m
  | .enumEnd m, f => .ok (f.enumEnd m)
  | .taggedBegin m, f => f.taggedBegin m
  | .taggedEnd m, f => .ok (f.taggedEnd m)
  | .tag m, f => .ok (f.tagStep m)
  | .recordBegin m _, f | .tupleBegin m _, f => (f.tagBegin m).bind mapBegin
  | .recordEnd m, f | .tupleEnd m, f => .ok ({ f with empty := false }.tagEnd m)
  | _, _ => .panic

end Flags

/-- The flags in a state. -/
def flags (bad : Bool) (s : St Text) : Flags :=
  ⟨s.tagged, s.empty, s.quoted, s.handler.map fun | .native => false | .number _ => true, bad⟩

/-- How the formatter and its flags go on. The flags do not say whether there is a panic, but only if they are bad. -/
def Follows (r : Res Unit (St Text)) : Res Unit Flags → Prop
  | .ok f => (∃ s, r = .ok s ∧ f = flags f.bad s) ∨ (r = .panic ∧ f.bad = true)
  | .err _ f => (∃ s, r = .err () s ∧ s.badKey = true) ∨ (r = .panic ∧ f.bad = true)
  | .panic => True

/-! ## Numbers in text -/

theorem numLoop_str (v : Text) : ∀ r : NumRun Text, ∃ r', numLoop strWriter v r = .ok r' := by
  induction v with
  | nil => exact fun r => ⟨r, rfl⟩
  | cons c v ih =>
    intro r
    have hw : ∀ (t : Text) (r : NumRun Text), NumRun.write strWriter t r = .ok { r with out := r.out ++ t } := fun t r => rfl
    rw [numLoop]
    split
    · exact ih _
    · split
      · split <;> simp only [hw, Res.bind] <;> exact ih _
      · split
        · split
          · split <;> simp only [hw, Res.bind] <;> exact ih _
          · exact ih _
        · split
          · exact ih _
          · split
            · exact ih _
            · split
              · exact ⟨_, rfl⟩
              · exact ih _

theorem ascii_size {c : Char} (h : c.toNat < 128) : c.utf8Size = 1 := by
  have : c.val ≤ 127 := by
    rw [UInt32.le_iff_toNat_le]
    show c.toNat ≤ 127
    omega
  rw [Char.utf8Size, if_pos (by simpa using this)]

theorem ascii_drop (v : Text) (hv : ascii v = true) (n : Nat) (hn : n ≤ v.length) : dropBytes v n = some (v.drop n) := by
  induction v generalizing n with
  | nil => cases n with
    | zero => rfl
    | succ n => simp at hn
  | cons c v ih =>
    simp only [ascii, List.all_cons, Bool.and_eq_true, decide_eq_true_eq] at hv
    cases n with
    | zero => rfl
    | succ n =>
      rw [dropBytes, ascii_size hv.1, if_pos (by omega)]
      exact ih hv.2 n (by simpa using hn)

theorem ascii_take (v : Text) (hv : ascii v = true) (n : Nat) (hn : n ≤ v.length) : takeBytes v n = some (v.take n) := by
  induction v generalizing n with
  | nil => cases n with
    | zero => rfl
    | succ n => simp at hn
  | cons c v ih =>
    simp only [ascii, List.all_cons, Bool.and_eq_true, decide_eq_true_eq] at hv
    cases n with
    | zero => rfl
    | succ n =>
      rw [takeBytes, ascii_size hv.1, if_pos (by omega)]
      show Option.map _ (takeBytes v n) = _
      rw [ih hv.2 n (by simpa using hn)]
      rfl

theorem numLoop_range (v : Text) (hv : ascii v = true) : ∀ r r' : NumRun Text, numLoop strWriter v r = .ok r' →
    r.start ≤ r.stop → r'.start ≤ r'.stop ∧ (r'.stop = 0 ∨ r'.stop = r.stop + v.length) := by
  induction v with
  | nil => rintro r r' h hr; cases h; exact ⟨hr, .inr rfl⟩
  | cons c v ih =>
    have hc : c.toNat < 128 ∧ ascii v = true := by
      simp only [ascii, List.all_cons, Bool.and_eq_true, decide_eq_true_eq] at hv
      exact hv
    have hu := ascii_size hc.1
    intro r r' h hr
    have hw : ∀ (t : Text) (r : NumRun Text), NumRun.write strWriter t r = .ok { r with out := r.out ++ t } := fun t r => rfl
    have key : ∀ q : NumRun Text, numLoop strWriter v q = .ok r' → q.start ≤ q.stop → q.stop = r.stop + 1 →
        r'.start ≤ r'.stop ∧ (r'.stop = 0 ∨ r'.stop = r.stop + (c :: v).length) := by
      intro q h1 h2 h3
      have := ih hc.2 q r' h1 h2
      simp only [List.length_cons]
      omega
    rw [numLoop] at h
    split at h
    · exact key _ h (by simpa using hr) rfl
    · split at h
      · split at h <;> simp only [hw, Res.bind] at h <;> exact key _ h (by simp; omega) rfl
      · split at h
        · split at h
          · split at h <;> simp only [hw, Res.bind] at h <;> exact key _ h (by simp; omega) rfl
          · simp only [Res.bind] at h; exact key _ h (by simp; omega) rfl
        · split at h
          · exact key _ h (by simpa using hr) rfl
          · split at h
            · exact key _ h (by simpa using hr) rfl
            · split at h
              · simp only [hw, Res.bind] at h; cases h; exact ⟨Nat.le_refl _, .inl rfl⟩
              · exact key _ h (by simp; omega) (by simp [hu])

theorem numFragment_str (v : Text) (r : NumSt × Text) :
    (∃ r', numFragment strWriter v r = .ok r') ∨ (numFragment strWriter v r = .panic ∧ ascii v = false) := by
  obtain ⟨n, o⟩ := r
  rw [numFragment]
  cases n.nan with
  | true => exact .inl ⟨_, rfl⟩
  | false =>
    obtain ⟨r', h⟩ := numLoop_str v { st := n, out := o }
    simp only [Bool.false_eq_true, if_false, h]
    cases hs : sliceBytes v r'.start r'.stop with
    | some t => exact .inl ⟨_, rfl⟩
    | none =>
      refine .inr ⟨rfl, ?_⟩
      cases ha : ascii v with
      | false => rfl
      | true =>
        have hr := numLoop_range v ha _ _ h (Nat.le_refl _)
        have h1 : ascii (v.drop r'.start) = true := by
          simp only [ascii, List.all_eq_true] at ha ⊢
          exact fun c hc => ha c (List.mem_of_mem_drop hc)
        simp only [Nat.zero_add] at hr
        rw [sliceBytes, if_pos hr.1, ascii_drop v ha _ (by omega), Option.bind_some,
          ascii_take _ h1 _ (by rw [List.length_drop]; omega)] at hs
        cases hs

/-! ## The formatter has these flags -/

theorem mapBegin_follows (b : Bool) (s : St Text) : Follows (mapBegin strWriter s) (flags b s).mapBegin := by
  obtain ⟨tg, em, q, h, bk, o⟩ := s
  cases q with
  | true => exact .inl ⟨_, rfl, rfl⟩
  | false => exact .inl ⟨_, rfl, rfl⟩

theorem fragment_follows (v : Text) (b : Bool) (s : St Text) :
    Follows (textFragment strWriter v s) (.ok ((flags b s).fragment v)) := by
  obtain ⟨tg, em, q, h, bk, o⟩ := s
  match h with
  | none =>
    refine .inl ⟨_, by simp only [textFragment, wr, escapeStr_str]; rfl, ?_⟩
    simp [flags, Flags.fragment]
  | some .native => exact .inl ⟨_, rfl, by simp [flags, Flags.fragment]⟩
  | some (.number n) =>
    rcases numFragment_str v (n, o) with ⟨⟨n', o'⟩, h⟩ | ⟨h, ha⟩
    · exact .inl ⟨_, by simp only [textFragment, h]; rfl, by simp [flags, Flags.fragment]⟩
    · exact .inr ⟨by simp only [textFragment, h], by simp [flags, Flags.fragment, ha]⟩

/-- Bad flags stay bad. -/
def StaysBad (k : Flags → Res Unit Flags) : Prop := ∀ f, f.bad = true → ∀ f', k f = .ok f' ∨ k f = .err () f' → f'.bad = true

theorem StaysBad.bind {k l : Flags → Res Unit Flags} (hk : StaysBad k) (hl : StaysBad l) : StaysBad fun f => (k f).bind l := by
  intro f hf f' h
  simp only at h
  cases hq : k f with
  | ok g => rw [hq] at h; exact hl g (hk f hf g (.inl hq)) f' h
  | err e g =>
    rw [hq] at h
    rcases h with h | h
    · cases h
    · cases h; exact hk f hf _ (.inr hq)
  | panic => rw [hq] at h; rcases h with h | h <;> cases h

theorem StaysBad.pure {k : Flags → Flags} (h : ∀ f, f.bad = true → (k f).bad = true) : StaysBad fun f => .ok (k f) := by
  intro f hf f' h'
  rcases h' with h' | h' <;> cases h'
  exact h f hf

theorem keeps_mapBegin : StaysBad Flags.mapBegin := by
  intro f hf f' h
  unfold Flags.mapBegin at h
  split at h <;> rcases h with h | h <;> cases h <;> exact hf

theorem keeps_tagBegin (m : Meta) : StaysBad (Flags.tagBegin m) := by
  intro f hf f' h
  unfold Flags.tagBegin at h
  split at h
  · split at h <;> rcases h with h | h <;> cases h <;> exact hf
  · rcases h with h | h <;> cases h; exact hf

theorem fragment_bad (v : Text) (f : Flags) (h : f.bad = true) : (f.fragment v).bad = true := by simp [Flags.fragment, h]

theorem tagStep_bad (m : Meta) (f : Flags) (h : f.bad = true) : (f.tagStep m).bad = true := by
  unfold Flags.tagStep
  simp only
  split
  · exact h
  · split
    · exact fragment_bad _ _ h
    · exact h

theorem tagIfEmpty_bad (m : Meta) (f : Flags) (h : f.bad = true) : (f.tagIfEmpty m).bad = true := by
  unfold Flags.tagIfEmpty
  split
  · exact tagStep_bad m f h
  · exact h

theorem keeps_step (t : Token) : StaysBad (Flags.step t) := by
  cases t with
  | mapBegin n => exact keeps_mapBegin
  | seqBegin n => exact keeps_mapBegin
  | enumBegin m => exact (keeps_tagBegin m).bind (StaysBad.pure fun f h => h)
  | taggedBegin m => exact fun f hf => ((keeps_tagBegin m).bind (StaysBad.pure (k := fun f => { f with empty := true }) fun f h => h)) (f.enter m) hf
  | recordBegin m n => exact (keeps_tagBegin m).bind keeps_mapBegin
  | tupleBegin m n => exact (keeps_tagBegin m).bind keeps_mapBegin
  | enumEnd m =>
    refine StaysBad.pure fun f h => ?_
    have := tagIfEmpty_bad m f h
    unfold Flags.enumEnd Flags.closeEnum
    split <;> exact this
  | taggedEnd m => exact StaysBad.pure fun f h => tagIfEmpty_bad m (f.leave m) h
  | tag m => exact StaysBad.pure (tagStep_bad m)
  | textFragmentComputed v => exact StaysBad.pure (fragment_bad v)
  | _ =>
    intro f hf f' h
    rcases h with h | h <;> first | (cases h; done) | (cases h; exact hf)

theorem Follows.bind {r : Res Unit (St Text)} {f : Res Unit Flags} {g : St Text → Res Unit (St Text)} {k : Flags → Res Unit Flags}
    (h : Follows r f) (hk : ∀ b s, Follows (g s) (k (flags b s)))
    (hm : StaysBad k) : Follows (r.bind g) (f.bind k) := by
  match f with
  | .ok f =>
    rcases h with ⟨s, rfl, hf⟩ | ⟨rfl, hf⟩
    · rw [hf]; exact hk _ _
    · show Follows .panic (k f)
      cases hq : k f with
      | ok f' => exact .inr ⟨rfl, hm f hf f' (.inl hq)⟩
      | err e f' => exact .inr ⟨rfl, hm f hf f' (.inr hq)⟩
      | panic => trivial
  | .err _ f =>
    rcases h with ⟨s, rfl, hf⟩ | ⟨rfl, hf⟩
    · exact .inl ⟨s, rfl, hf⟩
    · exact .inr ⟨rfl, hf⟩
  | .panic => trivial

theorem tagBegin_follows (m : Meta) (b : Bool) (s : St Text) : Follows (tagBegin strWriter m s) ((flags b s).tagBegin m) := by
  obtain ⟨tg, em, q, h, bk, o⟩ := s
  unfold tagBegin Flags.tagBegin
  rw [← hasId_eq]
  cases tg with
  | false => exact .inl ⟨_, rfl, rfl⟩
  | true =>
    simp only [if_true, flags, Bool.true_and]
    cases hl : m.label with
    | some l =>
      cases q with
      | true =>
        refine .inl ⟨_, by simp only [tagMapBeginLabel, mapBegin, Bool.not_true, Bool.false_eq_true, if_false, Res.bind, mapKeyBegin, wr, escapeStr_str, mapKeyEnd, strWriter]; rfl, rfl⟩
      | false => exact .inl ⟨_, rfl, rfl⟩
    | none =>
      cases hi : ixI64 m.index with
      | some i =>
        cases q with
        | true => exact .inl ⟨_, rfl, rfl⟩
        | false => exact .inl ⟨_, rfl, rfl⟩
      | none => exact .inl ⟨_, rfl, rfl⟩

theorem Follows.map {r : Res Unit (St Text)} {f : Flags} {g : St Text → Res Unit (St Text)} {k : Flags → Flags}
    (h : Follows r (.ok f)) (hk : ∀ b s, Follows (g s) (.ok (k (flags b s)))) (hm : ∀ f, f.bad = true → (k f).bad = true) :
    Follows (r.bind g) (.ok (k f)) :=
  Follows.bind (f := .ok f) (k := fun f => .ok (k f)) h hk (StaysBad.pure hm)

theorem Follows.same {b : Bool} {s : St Text} {f : Flags} (h : f = flags b s) : Follows (.ok s) (.ok f) :=
  .inl ⟨s, rfl, by subst h; rfl⟩

theorem tagStep_follows (m : Meta) (b : Bool) (s : St Text) : Follows (tagStep strWriter m s) (.ok ((flags b s).tagStep m)) := by
  unfold tagStep Flags.tagStep
  simp only
  split
  · exact Follows.same rfl
  · cases m.label with
    | some l =>
      simp only
      have h1 : ∃ s', textBegin strWriter { s with tagged := false, empty := false } = .ok s' ∧
          flags b s' = { flags b s with tagged := false, empty := false } := by
        obtain ⟨tg, em, q, h, bk, o⟩ := s
        cases q <;> exact ⟨_, rfl, rfl⟩
      obtain ⟨s', h1, h2⟩ := h1
      rw [h1, ← h2]
      simp only [Res.bind]
      exact Follows.map (k := fun f => f) (fragment_follows l.text b s') (fun b s => by
        obtain ⟨tg, em, q, h, bk, o⟩ := s
        cases q <;> exact Follows.same rfl) (fun _ h => h)
    | none => cases ixI64 m.index <;> exact Follows.same rfl

theorem tagIfEmpty_follows (m : Meta) (b : Bool) (s : St Text) :
    Follows (if s.empty then tagStep strWriter m s else .ok s) (.ok ((flags b s).tagIfEmpty m)) := by
  obtain ⟨tg, em, q, h, bk, o⟩ := s
  cases em with
  | true => exact tagStep_follows m b _
  | false => exact Follows.same rfl

theorem tag_kinds (t : Option Tag) : t = some tags.JSON_TEXT ∨ t = some tags.JSON_VALUE ∨ t = some tags.NUMBER ∨
    t = some tags.JSON_NUMBER ∨ (isSpecialTag t = false ∧ bareTag t = false) := by
  by_cases h1 : t = some tags.JSON_TEXT
  · exact .inl h1
  · by_cases h2 : t = some tags.JSON_VALUE
    · exact .inr (.inl h2)
    · by_cases h3 : t = some tags.NUMBER
      · exact .inr (.inr (.inl h3))
      · by_cases h4 : t = some tags.JSON_NUMBER
        · exact .inr (.inr (.inr (.inl h4)))
        · exact .inr (.inr (.inr (.inr (by simp [isSpecialTag, bareTag, h1, h2, h3, h4]))))

theorem step_follows (env : Env) (t : Token) (b : Bool) (s : St Text) :
    Follows (step strWriter env t s) (Flags.step t (flags b s)) := by
  cases t with
  | null => exact Follows.same rfl
  | bool x => exact Follows.same rfl
  | int t v => exact Follows.same rfl
  | f32 x => exact Follows.same rfl
  | f64 x => exact Follows.same rfl
  | textBegin n =>
    obtain ⟨tg, em, q, h, bk, o⟩ := s
    cases q <;> exact Follows.same rfl
  | textFragmentComputed v => exact fragment_follows v b s
  | textEnd =>
    obtain ⟨tg, em, q, h, bk, o⟩ := s
    cases q <;> exact Follows.same rfl
  | mapBegin n => exact mapBegin_follows b s
  | mapKeyBegin =>
    obtain ⟨tg, em, q, h, bk, o⟩ := s
    cases em <;> exact Follows.same rfl
  | mapKeyEnd => exact Follows.same rfl
  | mapValueBegin => exact Follows.same rfl
  | mapValueEnd => exact Follows.same rfl
  | mapEnd => exact Follows.same rfl
  | seqBegin n =>
    obtain ⟨tg, em, q, h, bk, o⟩ := s
    cases q with
    | true => exact .inl ⟨_, rfl, rfl⟩
    | false => exact .inl ⟨_, rfl, rfl⟩
  | seqValueBegin =>
    obtain ⟨tg, em, q, h, bk, o⟩ := s
    cases em <;> exact Follows.same rfl
  | seqValueEnd => exact Follows.same rfl
  | seqEnd => exact Follows.same rfl
  | enumBegin m =>
    exact (tagBegin_follows m b s).bind (k := fun f => .ok { f with tagged := true, empty := true }) (fun b s => Follows.same rfl)
      (StaysBad.pure fun f h => h)
  | enumEnd m =>
    refine (tagIfEmpty_follows m b s).map (k := Flags.closeEnum m) (fun b s => ?_) (fun f h => ?_)
    · obtain ⟨tg, em, q, h, bk, o⟩ := s
      cases tg with
      | true => exact Follows.same rfl
      | false => exact Follows.same (b := b) (by simp only [flags, Flags.closeEnum, Flags.tagEnd, hasId_eq]; rfl)
    · unfold Flags.closeEnum
      split <;> exact h
  | taggedBegin m =>
    obtain ⟨tg, em, q, h, bk, o⟩ := s
    have key : ∀ s', flags b s' = (flags b ⟨tg, em, q, h, bk, o⟩).enter m →
        Follows ((tagBegin strWriter m s').bind fun s => .ok { s with empty := true }) (Flags.taggedBegin m (flags b ⟨tg, em, q, h, bk, o⟩)) := by
      intro s' hs'
      rw [Flags.taggedBegin, ← hs']
      exact Follows.bind (k := fun f => .ok { f with empty := true }) (tagBegin_follows m b s') (fun b s => Follows.same rfl)
        (StaysBad.pure fun f h => h)
    show Follows (taggedBegin strWriter m ⟨tg, em, q, h, bk, o⟩) (Flags.taggedBegin m (flags b ⟨tg, em, q, h, bk, o⟩))
    unfold taggedBegin
    simp only
    apply key
    clear key
    obtain ⟨t, l, i⟩ := m
    rcases tag_kinds t with rfl | rfl | rfl | rfl | e
    · cases q <;> rfl
    · cases q <;> rfl
    · match h with
      | none => cases q <;> rfl
      | some .native => cases q <;> rfl
      | some (.number n) => cases q <;> rfl
    · cases q <;> rfl
    · have h1 := e.1
      simp only [isSpecialTag, Bool.or_eq_false_iff, decide_eq_false_iff_not] at h1
      obtain ⟨⟨⟨h1, h2⟩, h3⟩, h4⟩ := h1
      rw [if_neg h4, if_neg h2, if_neg h1, if_neg h3]
      simp [flags, Flags.enter, h1, e.1, e.2]
  | taggedEnd m =>
    show Follows (taggedEnd strWriter m s) (.ok (Flags.taggedEnd m (flags b s)))
    have key : ∀ r : Res Unit (St Text), Follows r (.ok ((flags b s).leave m)) →
        Follows (r.bind fun s => (if s.empty then tagStep strWriter m s else .ok s).bind fun s => tagEnd m s)
          (.ok (Flags.taggedEnd m (flags b s))) := fun r hr =>
      hr.map (k := fun f => (f.tagIfEmpty m).tagEnd m) (fun b s => (tagIfEmpty_follows m b s).map (k := Flags.tagEnd m)
        (fun b s => Follows.same (b := b) (by simp only [flags, Flags.tagEnd, hasId_eq])) (fun f h => h))
        (fun f h => tagIfEmpty_bad m f h)
    unfold taggedEnd
    apply key
    obtain ⟨tg, em, q, h, bk, o⟩ := s
    clear key
    obtain ⟨t, l, i⟩ := m
    rcases tag_kinds t with rfl | rfl | rfl | rfl | e
    · exact Follows.same (b := b) (by cases q <;> rfl)
    · exact Follows.same (b := b) (by cases q <;> rfl)
    · match h with
      | none => exact Follows.same (b := b) (by cases q <;> rfl)
      | some .native => exact Follows.same (b := b) (by cases q <;> rfl)
      | some (.number ⟨true, x, y⟩) => exact Follows.same (b := b) (by cases q <;> rfl)
      | some (.number ⟨false, x, y⟩) => exact Follows.same (b := b) (by cases q <;> rfl)
    · exact Follows.same (b := b) (by cases q <;> rfl)
    · have h1 := e.1
      simp only [isSpecialTag, Bool.or_eq_false_iff, decide_eq_false_iff_not] at h1
      obtain ⟨⟨⟨h1, h2⟩, h3⟩, h4⟩ := h1
      rw [if_neg h4, if_neg h2, if_neg h1, if_neg h3]
      exact Follows.same (b := b) (by simp [flags, Flags.leave, e.1, e.2])
  | tag m => exact tagStep_follows m b s
  | recordBegin m n => exact (tagBegin_follows m b s).bind mapBegin_follows keeps_mapBegin
  | recordValueBegin t l =>
    obtain ⟨tg, em, q, h, bk, o⟩ := s
    simp only [step, recordValueBegin, wr, escapeStr_str]
    by_cases hl : l.tag = some tags.VALUE_IDENT
    · simp only [if_pos hl]
      cases em <;> exact Follows.same rfl
    · simp only [if_neg hl]
      cases em <;> exact Follows.same rfl
  | recordValueEnd t l => exact Follows.same rfl
  | recordEnd m => exact Follows.same (b := b) (by simp only [flags, Flags.tagEnd, hasId_eq])
  | tupleBegin m n => exact (tagBegin_follows m b s).bind (fun b s => by
      obtain ⟨tg, em, q, h, bk, o⟩ := s
      cases q with
      | true => exact .inl ⟨_, rfl, rfl⟩
      | false => exact .inl ⟨_, rfl, rfl⟩) keeps_mapBegin
  | tupleValueBegin t i =>
    obtain ⟨tg, em, q, h, bk, o⟩ := s
    cases em <;> exact Follows.same rfl
  | tupleValueEnd t i => exact Follows.same rfl
  | tupleEnd m => exact Follows.same (b := b) (by simp only [flags, Flags.tagEnd, hasId_eq])
  | _ => trivial

theorem keeps_run (ts : List Token) : StaysBad (run Flags.step ts) := by
  induction ts with
  | nil => exact StaysBad.pure (k := fun f => f) fun f h => h
  | cons t ts ih =>
    have := (keeps_step t).bind ih
    exact fun f hf f' h => this f hf f' (by simpa only [run_cons] using h)

theorem run_follows (env : Env) (ts : List Token) (b : Bool) (s : St Text) :
    Follows (run (step strWriter env) ts s) (run Flags.step ts (flags b s)) := by
  induction ts generalizing b s with
  | nil => exact Follows.same rfl
  | cons t ts ih =>
    rw [run_cons, run_cons]
    exact (step_follows env t b s).bind ih (keeps_run ts)

/-! ## The flags of values -/

/-- A call, lowered. -/
def callF (t : Token) (f : Flags) : Res Unit Flags := run Flags.step (Low.tok jsonCaps t) f

theorem callF_native {t : Token} (h : Low.tok jsonCaps t = [t]) (f : Flags) : callF t f = Flags.step t f := by
  rw [callF, h, run_cons]
  cases Flags.step t f <;> rfl

theorem run_callF (ts : List Token) (f : Flags) : run callF ts f = run Flags.step (lower jsonCaps ts) f := by
  induction ts generalizing f with
  | nil => rfl
  | cons t ts ih =>
    rw [run_cons, lower, List.flatMap_cons, run_append]
    show (run Flags.step (Low.tok jsonCaps t) f).bind _ = _
    congr 1; funext f; exact ih f

/-- What some calls do to the flags: an error if `rf`, else flags with `post`. -/
def Ends (r : Res Unit Flags) (rf st : Bool) (f : Flags) (post : Flags → Prop) : Prop :=
  (rf = true ∧ ∃ f', r = .err () f' ∧ (st = true → f'.bad = f.bad)) ∨
  (rf = false ∧ ∃ f', r = .ok f' ∧ post f' ∧ (f'.handler = some true → f.handler = some true) ∧ (st = true → f'.bad = f.bad))

theorem Ends.then {r : Res Unit Flags} {k : Flags → Res Unit Flags} {rf st rf' st' : Bool} {f : Flags} {P Q : Flags → Prop}
    (h : Ends r rf st f P)
    (hk : ∀ f', P f' → (f'.handler = some true → f.handler = some true) → Ends (k f') rf' st' f' Q) :
    Ends (r.bind k) (rf || rf') (st && st') f Q := by
  rcases h with ⟨rfl, f', rfl, h1⟩ | ⟨rfl, f', rfl, h1, h4, h5⟩
  · exact .inl ⟨rfl, f', rfl, fun h => h1 (by simp only [Bool.and_eq_true] at h; exact h.1)⟩
  · have : ((st && st') = true → f'.bad = f.bad) ∧ ((st && st') = true → st' = true) := by
      constructor
      · intro h; simp only [Bool.and_eq_true] at h; exact h5 h.1
      · intro h; simp only [Bool.and_eq_true] at h; exact h.2
    rcases hk f' h1 h4 with ⟨e, f2, h, g⟩ | ⟨e, f2, h, g1, g4, g5⟩
    · exact .inl ⟨by rw [e]; rfl, f2, h, fun hs => (g (this.2 hs)).trans (this.1 hs)⟩
    · exact .inr ⟨by rw [e]; rfl, f2, h, g1, fun hh => h4 (g4 hh), fun hs => (g5 (this.2 hs)).trans (this.1 hs)⟩

theorem Ends.app {ts us : List Token} {rf st rf' st' : Bool} {f : Flags} {P Q : Flags → Prop} (h : Ends (run callF ts f) rf st f P)
    (hk : ∀ f', P f' → (f'.handler = some true → f.handler = some true) → Ends (run callF us f') rf' st' f' Q) :
    Ends (run callF (ts ++ us) f) (rf || rf') (st && st') f Q := by
  rw [run_append]
  exact h.then hk

/-- A call that cannot fail, in front. -/
theorem Ends.pre {t : Token} {ts : List Token} {f f1 : Flags} {rf st : Bool} {P : Flags → Prop} (h : callF t f = .ok f1)
    (hh : f1.handler = some true → f.handler = some true) (hb : f1.bad = f.bad)
    (ho : Ends (run callF ts f1) rf st f1 P) : Ends (run callF (t :: ts) f) rf st f P := by
  rw [run_cons, h]
  rcases ho with ⟨h1, f', h2, h3⟩ | ⟨h1, f', h2, h3, h6, h7⟩
  · exact .inl ⟨h1, f', h2, fun h => (h3 h).trans hb⟩
  · exact .inr ⟨h1, f', h2, h3, fun h => hh (h6 h), fun h => (h7 h).trans hb⟩

theorem Ends.done {f : Flags} {P : Flags → Prop} (h : P f) : Ends (run callF [] f) false true f P := .inr ⟨rfl, f, rfl, h, id, fun _ => rfl⟩

/-- A last call that cannot fail. -/
theorem Ends.last {t : Token} {f f1 : Flags} {P : Flags → Prop} (h : callF t f = .ok f1)
    (hh : f1.handler = some true → f.handler = some true) (hb : f1.bad = f.bad) (hp : P f1) :
    Ends (run callF [t] f) false true f P := Ends.pre h hh hb (Ends.done hp)

/-- A first call that fails. -/
theorem Ends.fail {t : Token} {ts : List Token} {f f1 : Flags} {rf st : Bool} {P : Flags → Prop} (h : callF t f = .err () f1)
    (hb : f1.bad = f.bad) (hr : rf = true) : Ends (run callF (t :: ts) f) rf st f P := by
  rw [run_cons, h]
  exact .inl ⟨hr, f1, rfl, fun _ => hb⟩

theorem Ends.cast {r : Res Unit Flags} {rf st rf' st' : Bool} {f : Flags} {P Q : Flags → Prop} (h : Ends r rf st f P)
    (h1 : rf = rf') (h2 : st = st') (h3 : ∀ f, P f → Q f) : Ends r rf' st' f Q := by
  subst h1 h2
  rcases h with h | ⟨h, f', g1, g2, g3⟩
  · exact .inl h
  · exact .inr ⟨h, f', g1, h3 _ g2, g3⟩

/-- What the calls of a value do to the flags. -/
def FlagsOf (v : V) : Prop := ∀ (tg em q : Bool) (h : Option Bool) (b num : Bool), (h = some true → num = true) →
  Ends (run callF (toks v) ⟨tg, em, q, h, b⟩) (refused tg q v) (calm num v) ⟨tg, em, q, h, b⟩ fun f' =>
    f'.tagged = leaves tg v ∧ f'.empty = false ∧ (q = true → f'.quoted = true)

theorem flags_frags (fs : List (Frag Text)) (f : Flags) (num : Bool) (hn : f.handler = some true → num = true) :
    ∃ f', run callF (fs.map textFragTok) f = .ok f' ∧ f' = { f with bad := f'.bad } ∧
      ((!num || ascii (fragsText fs)) = true → f'.bad = f.bad) := by
  induction fs generalizing f with
  | nil => exact ⟨f, rfl, rfl, fun _ => rfl⟩
  | cons x fs ih =>
    have hx : callF (textFragTok x) f = .ok (f.fragment x.content) := by cases x <;> rfl
    obtain ⟨f', h1, h2, h3⟩ := ih (f.fragment x.content) hn
    refine ⟨f', by rw [List.map_cons, run_cons, hx]; exact h1, by rw [h2]; rfl, fun h => ?_⟩
    have ha : num = true → ascii x.content = true ∧ ascii (fragsText fs) = true := by
      intro hn
      simpa [hn, fragsText, ascii, List.all_append] using h
    rw [h3 (by cases num <;> simp [ha])]
    simp only [Flags.fragment]
    cases hh : (f.handler == some true) with
    | false => simp
    | true => simp [(ha (hn (by simpa using hh))).1]

theorem flags_text (n : Option Nat) (fs : List (Frag Text)) : FlagsOf (.text n fs) := by
  intro tg em q h b num hn
  obtain ⟨f', h1, h2, h3⟩ := flags_frags fs ⟨tg, false, q, h, b⟩ num hn
  refine .inr ⟨rfl, f', ?_, ⟨by rw [h2]; rfl, by rw [h2], fun h => by rw [h2]; exact h⟩, fun h => by rw [h2] at h; exact h, h3⟩
  rw [toks, run_cons]
  show run callF (fs.map textFragTok ++ [.textEnd]) ⟨tg, false, q, h, b⟩ = _
  rw [run_append, h1]
  rfl

theorem flags_seqs (num : Bool) (xs : List V) (ih : ∀ x ∈ xs, FlagsOf x) (f : Flags) (hn : f.handler = some true → num = true)
    (hq : f.quoted = true) : Ends (run callF (toksSeq xs) f) (refused.refuseds xs) (calm.calms num xs) f
      fun f' => f'.tagged = leaves.leavesSeq f.tagged xs ∧ f'.quoted = true := by
  induction xs generalizing f with
  | nil => exact Ends.done ⟨rfl, hq⟩
  | cons x xs ihx =>
    obtain ⟨tg, em, q, h, b⟩ := f
    cases hq
    have h1 := ih x (.head _) false em true h b num hn
    refine Ends.pre (f1 := ⟨false, em, true, h, b⟩) rfl id rfl (Ends.app h1 fun f' hf h4 => ?_)
    have := ihx (fun x hx => ih x (.tail _ hx)) f' (fun h => hn (h4 h)) (hf.2.2 rfl)
    rw [hf.1] at this
    exact Ends.pre (f1 := f') rfl id rfl this

theorem flags_map (num : Bool) (kvs : List (V × V)) (ih : ∀ kv ∈ kvs, FlagsOf kv.1 ∧ FlagsOf kv.2) (f : Flags)
    (hn : f.handler = some true → num = true) (hq : f.quoted = true) :
    Ends (run callF (toksMap kvs) f) (refused.refusedMap kvs) (calm.calmMap num kvs) f
      fun f' => f'.tagged = leaves.leavesMap f.tagged kvs ∧ f'.quoted = true := by
  induction kvs generalizing f with
  | nil => exact Ends.done ⟨rfl, hq⟩
  | cons kv kvs ihx =>
    obtain ⟨k, v⟩ := kv
    obtain ⟨tg, em, q, h, b⟩ := f
    have h1 := (ih (k, v) (.head _)).1 false em false h b num hn
    rw [refused.refusedMap, calm.calmMap, Bool.or_assoc, Bool.and_assoc]
    refine Ends.pre (f1 := ⟨false, em, false, h, b⟩) rfl id rfl (Ends.app h1 fun f' hf h4 => ?_)
    obtain ⟨tg', em', q', h', b'⟩ := f'
    obtain ⟨hf, -, -⟩ := hf
    cases hf
    refine Ends.pre (f1 := ⟨leaves false k, em', true, h', b'⟩) rfl id rfl (Ends.pre (f1 := ⟨leaves false k, em', true, h', b'⟩) rfl id rfl ?_)
    refine Ends.app ((ih (k, v) (.head _)).2 (leaves false k) em' true h' b' num fun h => hn (h4 h)) fun f2 hf2 h5 => ?_
    have := ihx (fun x hx => ih x (.tail _ hx)) f2 (fun h => hn (h4 (h5 h))) (hf2.2.2 rfl)
    rw [hf2.1] at this
    exact Ends.pre (f1 := f2) rfl id rfl this

theorem flags_rec (num : Bool) (fs : List (Option Tag × Label × V)) (ih : ∀ x ∈ fs, FlagsOf x.2.2) (f : Flags)
    (hn : f.handler = some true → num = true) (hq : f.quoted = true) :
    Ends (run callF (toksRec fs) f) (refused.refusedRec fs) (calm.calmRec num fs) f fun f' => f'.quoted = true := by
  induction fs generalizing f with
  | nil => exact Ends.done hq
  | cons x fs ihx =>
    obtain ⟨t, l, x⟩ := x
    obtain ⟨tg, em, q, h, b⟩ := f
    cases hq
    have h1 := ih _ (.head _) false em true h b num hn
    refine Ends.pre (f1 := ⟨false, em, true, h, b⟩) rfl id rfl (Ends.app h1 fun f' hf h4 => ?_)
    exact Ends.pre (f1 := f') rfl id rfl (ihx (fun x hx => ih x (.tail _ hx)) f' (fun h => hn (h4 h)) (hf.2.2 rfl))

theorem flags_tup (num : Bool) (fs : List (Option Tag × Index × V)) (ih : ∀ x ∈ fs, FlagsOf x.2.2) (f : Flags)
    (hn : f.handler = some true → num = true) (hq : f.quoted = true) :
    Ends (run callF (toksTup fs) f) (refused.refusedTup fs) (calm.calmTup num fs) f fun f' => f'.quoted = true := by
  induction fs generalizing f with
  | nil => exact Ends.done hq
  | cons x fs ihx =>
    obtain ⟨t, l, x⟩ := x
    obtain ⟨tg, em, q, h, b⟩ := f
    cases hq
    have h1 := ih _ (.head _) false em true h b num hn
    refine Ends.pre (f1 := ⟨false, em, true, h, b⟩) rfl id rfl (Ends.app h1 fun f' hf h4 => ?_)
    exact Ends.pre (f1 := f') rfl id rfl (ihx (fun x hx => ih x (.tail _ hx)) f' (fun h => hn (h4 h)) (hf.2.2 rfl))

theorem flags_rt (num : Bool) (fs : List (Option Tag × Label × Index × V)) (ih : ∀ x ∈ fs, FlagsOf x.2.2.2) (f : Flags)
    (hn : f.handler = some true → num = true) (hq : f.quoted = true) :
    Ends (run callF (toksRT fs) f) (refused.refusedRT fs) (calm.calmRT num fs) f fun f' => f'.quoted = true := by
  induction fs generalizing f with
  | nil => exact Ends.done hq
  | cons x fs ihx =>
    obtain ⟨t, l, i, x⟩ := x
    obtain ⟨tg, em, q, h, b⟩ := f
    cases hq
    have h1 := ih _ (.head _) false em true h b num hn
    refine Ends.pre (f1 := ⟨false, em, true, h, b⟩) rfl id rfl (Ends.app h1 fun f' hf h4 => ?_)
    exact Ends.pre (f1 := f') rfl id rfl (ihx (fun x hx => ih x (.tail _ hx)) f' (fun h => hn (h4 h)) (hf.2.2 rfl))

theorem flags_int (t : IntTy) (x : Int) : FlagsOf (.int t x) := by
  intro tg em q h b num hn
  refine Ends.last (f1 := ⟨tg, false, q, h, b⟩) ?_ id rfl ⟨rfl, rfl, id⟩
  cases t <;> rfl

theorem flags_seq (n : Option Nat) (xs : List V) (ih : ∀ x ∈ xs, FlagsOf x) : FlagsOf (.seq n xs) := by
  intro tg em q h b num hn
  cases q with
  | false => exact Ends.fail (f1 := ⟨tg, em, false, h, b⟩) rfl rfl rfl
  | true =>
    refine Ends.pre (f1 := ⟨tg, true, true, h, b⟩) rfl id rfl ?_
    refine (Ends.app (flags_seqs num xs ih ⟨tg, true, true, h, b⟩ hn rfl) (Q := fun f' =>
      f'.tagged = leaves.leavesSeq tg xs ∧ f'.empty = false ∧ (true = true → f'.quoted = true)) fun f' hf h4 => ?_).cast
        (Bool.or_false _) (Bool.and_true _) fun f hf => hf
    exact Ends.last (f1 := { f' with empty := false }) rfl id rfl ⟨hf.1, rfl, fun _ => hf.2⟩

theorem binary_runF (n : Option Nat) (fs : List (Frag Bytes)) (f : Flags) :
    run callF (toks (.binary n fs)) f = run callF (toks (.seq n (bytesV (fragsBytes fs)))) f := by
  rw [run_callF, run_callF, lower_toks, lower_toks]
  rw [lowV, lowV, bytesV_low]
  rfl

theorem bytesV_flags (b : Bytes) : refused.refuseds (bytesV b) = false ∧ (∀ num, calm.calms num (bytesV b) = true) ∧
    ∀ tg, leaves.leavesSeq tg (bytesV b) = (tg && b.isEmpty) := by
  induction b with
  | nil => exact ⟨rfl, fun _ => rfl, fun tg => by cases tg <;> rfl⟩
  | cons x b ih =>
    refine ⟨ih.1, fun n => ih.2.1 n, fun tg => ?_⟩
    show leaves.leavesSeq false (bytesV b) = _
    rw [ih.2.2]
    cases tg <;> rfl

theorem flags_binary (n : Option Nat) (fs : List (Frag Bytes)) : FlagsOf (.binary n fs) := by
  intro tg em q h b num hn
  rw [binary_runF]
  obtain ⟨h1, h2, h3⟩ := bytesV_flags (fragsBytes fs)
  refine (flags_seq n (bytesV (fragsBytes fs)) (fun x hx => ?_) tg em q h b num hn).cast ?_ ?_ ?_
  · simp only [bytesV, List.mem_map] at hx
    obtain ⟨b, _, rfl⟩ := hx
    exact flags_int _ _
  · show (!q || refused.refuseds _) = _
    rw [h1, Bool.or_false]; rfl
  · exact h2 num
  · intro f hf
    rw [leaves, h3] at hf
    exact hf

theorem flags_tag (m : Meta) : FlagsOf (.tag m) := by
  intro tg em q h b num hn
  refine .inr ⟨rfl, Flags.tagStep m ⟨tg, em, q, h, b⟩, rfl, ?_⟩
  have hs : ∀ l : Label, ((num && !ascii l.text) = false) → (h == some true && !ascii l.text) = false := by
    intro l hl
    cases hh : (h == some true) with
    | false => rfl
    | true => rw [hn (by simpa using hh)] at hl; exact hl
  simp only [Flags.tagStep]
  split
  · exact ⟨⟨rfl, rfl, id⟩, id, fun _ => rfl⟩
  · cases hl : m.label with
    | none => exact ⟨⟨rfl, rfl, id⟩, id, fun _ => rfl⟩
    | some l =>
      refine ⟨⟨rfl, rfl, id⟩, id, fun hst => ?_⟩
      have : (num && !ascii l.text) = false := by
        rw [calm, hl] at hst
        simp only [Option.map_some, Option.getD_some] at hst
        revert hst
        cases num <;> cases ascii l.text <;> simp
      simp [Flags.fragment, hs l this]

theorem flags_record (m : Meta) (n : Option Nat) (fs : List (Option Tag × Label × V)) (ih : ∀ x ∈ fs, FlagsOf x.2.2) :
    FlagsOf (.record m n fs) := by
  intro tg em q h b num hn
  cases q with
  | false =>
    cases hc : (tg && (idOf m).isSome) with
    | true =>
      refine Ends.fail (f1 := ⟨tg, em, false, h, b⟩) ?_ rfl rfl
      rw [callF_native rfl]
      show (Flags.tagBegin m _).bind _ = _
      simp only [Flags.tagBegin, hc]
      rfl
    | false =>
      refine Ends.fail (f1 := ⟨false, em, false, h, b⟩) ?_ rfl rfl
      rw [callF_native rfl]
      show (Flags.tagBegin m _).bind _ = _
      simp only [Flags.tagBegin, hc]
      rfl
  | true =>
    refine Ends.pre (f1 := ⟨false, true, true, h, b⟩) ?_ id rfl ?_
    · rw [callF_native rfl]
      show (Flags.tagBegin m _).bind _ = _
      cases hc : (tg && (idOf m).isSome) <;> simp only [Flags.tagBegin, hc] <;> rfl
    · refine (Ends.app (flags_rec num fs ih ⟨false, true, true, h, b⟩ hn rfl) (Q := fun f' =>
        f'.tagged = (idOf m).isSome ∧ f'.empty = false ∧ (true = true → f'.quoted = true)) fun f' hf h4 => ?_).cast
          (Bool.or_false _) (Bool.and_true _) fun f hf => hf
      exact Ends.last (f1 := { f' with empty := false, tagged := (idOf m).isSome }) rfl id rfl ⟨rfl, rfl, fun _ => hf⟩

theorem flags_tuple (m : Meta) (n : Option Nat) (fs : List (Option Tag × Index × V)) (ih : ∀ x ∈ fs, FlagsOf x.2.2) :
    FlagsOf (.tuple m n fs) := by
  intro tg em q h b num hn
  cases q with
  | false =>
    cases hc : (tg && (idOf m).isSome) with
    | true =>
      refine Ends.fail (f1 := ⟨tg, em, false, h, b⟩) ?_ rfl rfl
      rw [callF_native rfl]
      show (Flags.tagBegin m _).bind _ = _
      simp only [Flags.tagBegin, hc]
      rfl
    | false =>
      refine Ends.fail (f1 := ⟨false, em, false, h, b⟩) ?_ rfl rfl
      rw [callF_native rfl]
      show (Flags.tagBegin m _).bind _ = _
      simp only [Flags.tagBegin, hc]
      rfl
  | true =>
    refine Ends.pre (f1 := ⟨false, true, true, h, b⟩) ?_ id rfl ?_
    · rw [callF_native rfl]
      show (Flags.tagBegin m _).bind _ = _
      cases hc : (tg && (idOf m).isSome) <;> simp only [Flags.tagBegin, hc] <;> rfl
    · refine (Ends.app (flags_tup num fs ih ⟨false, true, true, h, b⟩ hn rfl) (Q := fun f' =>
        f'.tagged = (idOf m).isSome ∧ f'.empty = false ∧ (true = true → f'.quoted = true)) fun f' hf h4 => ?_).cast
          (Bool.or_false _) (Bool.and_true _) fun f hf => hf
      exact Ends.last (f1 := { f' with empty := false, tagged := (idOf m).isSome }) rfl id rfl ⟨rfl, rfl, fun _ => hf⟩

theorem rt_flags (m : Meta) (n : Option Nat) (fs : List (Option Tag × Label × Index × V)) (f : Flags) :
    run callF (toks (.recordTuple m n fs)) f = run callF (toks (.record m n (unRT fs))) f := by
  have : ∀ fs : List (Option Tag × Label × Index × V), lower jsonCaps (toksRT fs) = lower jsonCaps (toksRec (unRT fs)) := by
    intro fs
    induction fs with
    | nil => rfl
    | cons x fs ih =>
      obtain ⟨t, l, i, v⟩ := x
      simp only [toksRT, unRT, List.map_cons, toksRec, lower, List.flatMap_cons, List.flatMap_append] at ih ⊢
      rw [ih]
      rfl
  rw [run_callF, run_callF]
  simp only [toks, lower, List.flatMap_cons, List.flatMap_append] at this ⊢
  rw [this]
  rfl

theorem unRT_flags (fs : List (Option Tag × Label × Index × V)) : refused.refusedRec (unRT fs) = refused.refusedRT fs ∧
    ∀ num, calm.calmRec num (unRT fs) = calm.calmRT num fs := by
  induction fs with
  | nil => exact ⟨rfl, fun _ => rfl⟩
  | cons x fs ih =>
    obtain ⟨t, l, i, v⟩ := x
    exact ⟨congrArg (refused false true v || ·) ih.1, fun n => congrArg (calm n v && ·) (ih.2 n)⟩

theorem flags_recordTuple (m : Meta) (n : Option Nat) (fs : List (Option Tag × Label × Index × V)) (ih : ∀ x ∈ fs, FlagsOf x.2.2.2) :
    FlagsOf (.recordTuple m n fs) := by
  intro tg em q h b num hn
  rw [rt_flags]
  refine (flags_record m n (unRT fs) (fun x hx => ?_) tg em q h b num hn).cast ?_ ((unRT_flags fs).2 num) (fun f hf => hf)
  · simp only [unRT, List.mem_map] at hx
    obtain ⟨y, hy, rfl⟩ := hx
    exact ih y hy
  · show (!q || refused.refusedRec _) = _
    rw [(unRT_flags fs).1]; rfl

theorem flags_tagged (m : Meta) (v : V) (ih : FlagsOf v) : FlagsOf (.tagged m v) := by
  intro tg em q h b num hn
  have hq : ∃ q1, (q && !bareTag m.tag) = q1 := ⟨_, rfl⟩
  obtain ⟨q1, hq⟩ := hq
  obtain ⟨h1, hh⟩ : ∃ h1, (Flags.enter m ⟨tg, em, q, h, b⟩).handler = h1 := ⟨_, rfl⟩
  obtain ⟨n1, hn1⟩ : ∃ n1, (if m.tag = some tags.NUMBER then true else if isSpecialTag m.tag then false else num) = n1 := ⟨_, rfl⟩
  have he : Flags.enter m ⟨tg, em, q, h, b⟩ = ⟨tg, em, q1, h1, b⟩ := by rw [← hq, ← hh]; rfl
  have hs : calm num (.tagged m v) = calm n1 v := by rw [← hn1]; rfl
  have hr : refused tg q (.tagged m v) = ((tg && (idOf m).isSome && !q1) || refused false q1 v) := by rw [← hq]; rfl
  have hn' : h1 = some true → n1 = true := by
    rw [← hh, ← hn1]
    simp only [Flags.enter]
    by_cases g : m.tag = some tags.NUMBER
    · simp only [g, if_true]; exact fun _ => trivial
    · simp only [g, if_false]
      cases isSpecialTag m.tag
      · exact hn
      · exact nofun
  have key : ∀ em1, callF (.taggedBegin m) ⟨tg, em, q, h, b⟩ = .ok ⟨false, em1, q1, h1, b⟩ →
      Ends (run callF (toks (.tagged m v)) ⟨tg, em, q, h, b⟩) (refused false q1 v) (calm n1 v) ⟨tg, em, q, h, b⟩ fun f' =>
        f'.tagged = leaves tg (.tagged m v) ∧ f'.empty = false ∧ (q = true → f'.quoted = true) := by
    intro em1 hb
    rw [toks, run_cons, hb]
    show Ends (run callF (toks v ++ [.taggedEnd m]) ⟨false, em1, q1, h1, b⟩) _ _ _ _
    rw [run_append]
    have hend : ∀ tg' q' h' b', callF (.taggedEnd m) ⟨tg', false, q', h', b'⟩ =
        .ok ⟨(idOf m).isSome, false, q' || bareTag m.tag, if isSpecialTag m.tag then none else h', b'⟩ := fun _ _ _ _ => rfl
    rcases ih false em1 q1 h1 b n1 hn' with ⟨g1, f', g2, g3⟩ | ⟨g1, ⟨tg', em', q', h', b'⟩, g2, ⟨g3, g4, g5⟩, g6, g7⟩
    · exact .inl ⟨g1, f', by rw [g2]; rfl, g3⟩
    · simp only at g3 g4 g5 g6 g7
      subst g4
      refine .inr ⟨g1, _, by rw [g2, Res.bind, run_cons, hend]; rfl, ⟨rfl, rfl, ?_⟩, ?_, g7⟩
      · intro hq2
        show (q' || bareTag m.tag) = true
        rw [hq2] at hq
        cases hbt : bareTag m.tag with
        | true => exact Bool.or_true _
        | false => rw [hbt] at hq; rw [g5 hq.symm]; rfl
      · intro hx
        rcases hsp : isSpecialTag m.tag with _ | _
        · simp only [hsp, Bool.false_eq_true, if_false] at hx
          have hx := g6 hx
          rw [← hh] at hx
          simp only [Flags.enter, hsp] at hx
          split at hx
          · rename_i g; rw [g] at hsp; exact absurd hsp (by decide)
          · exact hx
        · simp only [hsp, if_true] at hx
          cases hx
  have hbegin : callF (.taggedBegin m) ⟨tg, em, q, h, b⟩ =
      (Flags.tagBegin m ⟨tg, em, q1, h1, b⟩).bind fun f => .ok { f with empty := true } := by
    rw [callF_native rfl, ← he]; rfl
  rw [hs, hr]
  cases hc : (tg && (idOf m).isSome) with
  | false =>
    refine (key true ?_).cast rfl rfl fun f hf => hf
    rw [hbegin]
    simp only [Flags.tagBegin, hc]
    rfl
  | true =>
    cases q1 with
    | true =>
      refine (key true ?_).cast rfl rfl fun f hf => hf
      rw [hbegin]
      simp only [Flags.tagBegin, hc]
      rfl
    | false =>
      refine Ends.fail (f1 := ⟨tg, em, false, h1, b⟩) ?_ rfl rfl
      rw [hbegin]
      simp only [Flags.tagBegin, hc]
      rfl

theorem flags_enum (m : Meta) (v : V) (ih : FlagsOf v) : FlagsOf (.enum m v) := by
  intro tg em q h b num hn
  have key : callF (.enumBegin m) ⟨tg, em, q, h, b⟩ = .ok ⟨true, true, q, h, b⟩ →
      Ends (run callF (toks (.enum m v)) ⟨tg, em, q, h, b⟩) (refused true q v) (calm num v) ⟨tg, em, q, h, b⟩ fun f' =>
        f'.tagged = leaves tg (.enum m v) ∧ f'.empty = false ∧ (q = true → f'.quoted = true) := by
    intro hb
    refine Ends.pre hb id rfl ?_
    refine (Ends.app (ih true true q h b num hn) (Q := fun f' =>
        f'.tagged = leaves tg (.enum m v) ∧ f'.empty = false ∧ (q = true → f'.quoted = true)) fun f' hf h4 => ?_).cast
          (Bool.or_false _) (Bool.and_true _) fun f hf => hf
    obtain ⟨tg', em', q', h', b'⟩ := f'
    obtain ⟨h1, h2, h3⟩ := hf
    simp only at h1 h2 h3
    subst h1 h2
    refine Ends.last (f1 := ⟨leaves true v || (idOf m).isSome, false, q', h', b'⟩) ?_ id rfl ⟨rfl, rfl, h3⟩
    show Res.ok (Flags.closeEnum m _) = _
    cases hl : leaves true v <;> rfl
  cases hc : (tg && (idOf m).isSome) with
  | false =>
    refine (key ?_).cast (by rw [refused, hc]; rfl) rfl fun f hf => hf
    rw [callF_native rfl]
    show (Flags.tagBegin m _).bind _ = _
    simp only [Flags.tagBegin, hc]
    rfl
  | true =>
    cases q with
    | true =>
      refine (key ?_).cast (by rw [refused, hc]; rfl) rfl fun f hf => hf
      rw [callF_native rfl]
      show (Flags.tagBegin m _).bind _ = _
      simp only [Flags.tagBegin, hc]
      rfl
    | false =>
      refine Ends.fail (f1 := ⟨tg, em, false, h, b⟩) ?_ rfl (by rw [refused, hc]; rfl)
      rw [callF_native rfl]
      show (Flags.tagBegin m _).bind _ = _
      simp only [Flags.tagBegin, hc]
      rfl

theorem flagsOf (v : V) : FlagsOf v := by
  refine V.ind (P := FlagsOf) ?_ ?_ flags_int ?_ ?_ flags_text flags_binary flags_seq ?_ flags_tag flags_tagged flags_enum
    flags_record flags_tuple flags_recordTuple ?_ v
  · exact fun tg em q h b num hn => Ends.last (f1 := ⟨tg, false, q, h, b⟩) rfl id rfl ⟨rfl, rfl, id⟩
  · exact fun _ tg em q h b num hn => Ends.last (f1 := ⟨tg, false, q, h, b⟩) rfl id rfl ⟨rfl, rfl, id⟩
  · exact fun _ tg em q h b num hn => Ends.last (f1 := ⟨tg, false, q, h, b⟩) rfl id rfl ⟨rfl, rfl, id⟩
  · exact fun _ tg em q h b num hn => Ends.last (f1 := ⟨tg, false, q, h, b⟩) rfl id rfl ⟨rfl, rfl, id⟩
  · intro n xs ih tg em q h b num hn
    cases q with
    | false => exact Ends.fail (f1 := ⟨tg, em, false, h, b⟩) rfl rfl rfl
    | true =>
      refine Ends.pre (f1 := ⟨tg, true, true, h, b⟩) rfl id rfl ?_
      refine (Ends.app (flags_map num xs ih ⟨tg, true, true, h, b⟩ hn rfl) (Q := fun f' =>
        f'.tagged = leaves.leavesMap tg xs ∧ f'.empty = false ∧ (true = true → f'.quoted = true)) fun f' hf h4 => ?_).cast
          (Bool.or_false _) (Bool.and_true _) fun f hf => hf
      exact Ends.last (f1 := { f' with empty := false }) rfl id rfl ⟨hf.1, rfl, fun _ => hf.2⟩
  · exact fun t v ih tg em q h b num hn => Ends.pre (f1 := ⟨tg, em, q, h, b⟩) rfl id rfl (ih tg em q h b num hn)

end Sval.Json
