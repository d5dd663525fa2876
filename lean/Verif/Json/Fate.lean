import Verif.Json.Quiet

set_option autoImplicit false

/-!
# How the stream of a value ends

`fate` says it from the value alone: it is written, it is refused, or there is a panic.
-/

namespace Sval.Json

/-! ## Specification -/

/-- A character that makes a number in text one that JSON has not: from `inf`, `nan` and their like. -/
def odd (c : Char) : Bool := (t! "sniSNI").contains c

/-- A character with which the digits of a number in text begin. -/
def firm (c : Char) : Bool := (t! "123456789.").contains c

/-- How many signs and zeroes there are before the digits begin. -/
def leading (v : Text) : Nat := ((v.takeWhile fun c => !firm c).filter fun c => (t! "0+-").contains c).length

/-- Does byte `n` begin a character, or end the text? -/
def boundary (v : Text) (n : Nat) : Bool := (List.range (v.length + 1)).any fun k => utf8Len (v.take k) == n

/-- Is there an attempt to drop as many bytes as there are leading signs and zeroes, where that cuts a character? -/
def cuts (v : Text) : Bool := !v.any odd && !boundary v (leading v)

/-- The same for text in fragments: the digits must not have begun. -/
def trips : List Text → Bool
  | [] => false
  | v :: vs => cuts v || (!v.any odd && !v.any firm && trips vs)

/-- How text is written: as text, as it is, or as a number. -/
inductive Hand where
  | plain
  | raw
  | number
deriving DecidableEq, Repr

def Hand.enter (t : Option Tag) (h : Hand) : Hand :=
  if t = some tags.NUMBER then if h = .plain then .number else h
  else if isSpecialTag t then .raw else h

/-- Is there a tag in the value behind which text is written as text? -/
def resets : V → Bool
  | .seq _ xs => resetsSeq xs
  | .map _ kvs => resetsMap kvs
  | .tagged m v => isSpecialTag m.tag || resets v
  | .enum _ v => resets v
  | .record _ _ fs => resetsRec fs
  | .tuple _ _ fs => resetsTup fs
  | .recordTuple _ _ fs => resetsRT fs
  | .hint _ v => resets v
  | _ => false
where
  resetsSeq : List V → Bool
    | [] => false
    | x :: xs => resets x || resetsSeq xs
  resetsMap : List (V × V) → Bool
    | [] => false
    | (k, v) :: r => resets k || resets v || resetsMap r
  resetsRec : List (Option Tag × Label × V) → Bool
    | [] => false
    | (_, _, v) :: r => resets v || resetsRec r
  resetsTup : List (Option Tag × Index × V) → Bool
    | [] => false
    | (_, _, v) :: r => resets v || resetsTup r
  resetsRT : List (Option Tag × Label × Index × V) → Bool
    | [] => false
    | (_, _, _, v) :: r => resets v || resetsRT r

def Hand.after (v : V) (h : Hand) : Hand := if resets v then .plain else h

/-- How the stream of a value ends. -/
inductive Fate where
  | written
  | refused
  | panic
deriving DecidableEq, Repr

/-- The first that is not written says how it ends. -/
def Fate.then : Fate → Fate → Fate
  | .written, x => x
  | x, _ => x

/-- The fate of a value. `named` and `quoted` are as in `refused`. -/
def fate (named quoted : Bool) (h : Hand) : V → Fate
  | .text _ fs => if h = .number ∧ trips (fs.map Frag.content) then .panic else .written
  | .tag m =>
    if h = .number ∧ m.tag ≠ some tags.RUST_OPTION_NONE ∧ (m.label.any fun l => cuts l.text) then .panic else .written
  | .binary _ _ => if quoted then .written else .refused
  | .seq _ xs => if quoted then fates h xs else .refused
  | .map _ kvs => if quoted then fateMap h kvs else .refused
  | .tagged m v =>
    if named && (idOf m).isSome && !(quoted && !bareTag m.tag) then .refused
    else fate false (quoted && !bareTag m.tag) (h.enter m.tag) v
  | .enum m v => if named && (idOf m).isSome && !quoted then .refused else fate true quoted h v
  | .record _ _ fs => if quoted then fateRec h fs else .refused
  | .tuple _ _ fs => if quoted then fateTup h fs else .refused
  | .recordTuple _ _ fs => if quoted then fateRT h fs else .refused
  | .hint _ v => fate named quoted h v
  | _ => .written
where
  fates (h : Hand) : List V → Fate
    | [] => .written
    | x :: xs => (fate false true h x).then (fates (h.after x) xs)
  fateMap (h : Hand) : List (V × V) → Fate
    | [] => .written
    | (k, v) :: r =>
      (fate false false h k).then ((fate (leaves false k) true (h.after k) v).then (fateMap ((h.after k).after v) r))
  fateRec (h : Hand) : List (Option Tag × Label × V) → Fate
    | [] => .written
    | (_, _, v) :: r => (fate false true h v).then (fateRec (h.after v) r)
  fateTup (h : Hand) : List (Option Tag × Index × V) → Fate
    | [] => .written
    | (_, _, v) :: r => (fate false true h v).then (fateTup (h.after v) r)
  fateRT (h : Hand) : List (Option Tag × Label × Index × V) → Fate
    | [] => .written
    | (_, _, _, v) :: r => (fate false true h v).then (fateRT (h.after v) r)

/-! ## Slices -/

theorem boundary_iff (v : Text) (n : Nat) : boundary v n = true ↔ ∃ a b, v = a ++ b ∧ utf8Len a = n := by
  simp only [boundary, List.any_eq_true, List.mem_range, beq_iff_eq]
  constructor
  · rintro ⟨k, _, h⟩
    exact ⟨v.take k, v.drop k, (List.take_append_drop k v).symm, h⟩
  · rintro ⟨a, b, rfl, h⟩
    exact ⟨a.length, by simp; omega, by rw [List.take_left]; exact h⟩

theorem dropBytes_iff (v : Text) (n : Nat) (t : Text) : dropBytes v n = some t ↔ ∃ a, v = a ++ t ∧ utf8Len a = n := by
  induction v generalizing n with
  | nil =>
    cases n with
    | zero =>
      constructor
      · intro h; cases h; exact ⟨[], rfl, rfl⟩
      · rintro ⟨a, h, _⟩
        have := (List.append_eq_nil_iff.mp h.symm).2
        rw [this]; rfl
    | succ n =>
      constructor
      · intro h; cases h
      · rintro ⟨a, h, h2⟩
        rw [(List.append_eq_nil_iff.mp h.symm).1] at h2
        cases h2
  | cons c v ih =>
    cases n with
    | zero =>
      constructor
      · intro h; cases h; exact ⟨[], rfl, rfl⟩
      · rintro ⟨a, h, h2⟩
        cases a with
        | nil => rw [h]; exact dropBytes.eq_1 _
        | cons d a =>
          have := d.utf8Size_pos
          simp only [utf8Len, List.map_cons, List.sum_cons] at h2
          omega
    | succ n =>
      rw [dropBytes]
      split
      · rename_i hc
        rw [ih]
        constructor
        · rintro ⟨a, rfl, h2⟩
          refine ⟨c :: a, rfl, ?_⟩
          simp only [utf8Len, List.map_cons, List.sum_cons] at h2 ⊢
          omega
        · rintro ⟨a, h, h2⟩
          cases a with
          | nil => cases h2
          | cons d a =>
            simp only [List.cons_append, List.cons.injEq] at h
            obtain ⟨rfl, rfl⟩ := h
            refine ⟨a, rfl, ?_⟩
            simp only [utf8Len, List.map_cons, List.sum_cons] at h2 ⊢
            omega
      · rename_i hc
        constructor
        · intro h; cases h
        · rintro ⟨a, h, h2⟩
          cases a with
          | nil => cases h2
          | cons d a =>
            simp only [List.cons_append, List.cons.injEq] at h
            obtain ⟨rfl, rfl⟩ := h
            simp only [utf8Len, List.map_cons, List.sum_cons] at h2
            omega

/-- A slice to the end. -/
theorem slice_end (v : Text) (n : Nat) (hn : n ≤ utf8Len v) : (sliceBytes v n (utf8Len v)).isSome = boundary v n := by
  rw [sliceBytes, if_pos hn]
  cases hd : dropBytes v n with
  | none =>
    cases hb : boundary v n with
    | false => rfl
    | true =>
      obtain ⟨a, b, h1, h2⟩ := (boundary_iff v n).mp hb
      rw [(dropBytes_iff v n b).mpr ⟨a, h1, h2⟩] at hd
      cases hd
  | some t =>
    obtain ⟨a, rfl, h2⟩ := (dropBytes_iff v n t).mp hd
    rw [(boundary_iff _ n).mpr ⟨a, t, rfl, h2⟩, Option.bind_some, utf8Len_append, h2, Nat.add_sub_cancel_left, takeBytes_all]
    rfl

/-! ## Numbers in text -/

theorem firm_iff (c : Char) : firm c = (c ≠ '0' && isDigit c || c = '.') := by
  have h : ∀ d : Char, c = d ↔ c.toNat = d.toNat :=
    fun d => ⟨fun h => by rw [h], fun h => Char.ext (UInt32.toNat_inj.mp h)⟩
  rw [Bool.eq_iff_iff]
  simp only [firm, isDigit, List.contains_cons, List.contains_nil, Bool.or_eq_true, beq_iff_eq, Bool.and_eq_true, decide_eq_true_eq, h,
    ne_eq, Char.reduceToNat, Bool.or_false]
  omega

theorem odd_firm (c : Char) (h : odd c = true) : firm c = false ∧ (t! "0+-").contains c = false ∧ isDigit c = false ∧ c ≠ '.' := by
  simp only [odd, List.contains_cons, List.contains_nil, Bool.or_eq_true, beq_iff_eq, Bool.or_false] at h
  rcases h with rfl | rfl | rfl | rfl | rfl | rfl <;> decide

theorem sign_size (c : Char) (h : (t! "0+-").contains c = true) : c.utf8Size = 1 := by
  simp only [List.contains_cons, List.contains_nil, Bool.or_eq_true, beq_iff_eq, Bool.or_false] at h
  rcases h with rfl | rfl | rfl <;> decide

theorem firm_size (c : Char) (h : isDigit c = true ∨ c = '.') : c.utf8Size = 1 := by
  rcases h with h | rfl
  · simp only [isDigit, Bool.and_eq_true, decide_eq_true_eq] at h
    exact ascii_size (by omega)
  · decide

theorem leading_cons (c : Char) (v : Text) :
    leading (c :: v) = if firm c then 0 else (if (t! "0+-").contains c then 1 else 0) + leading v := by
  unfold leading
  rw [List.takeWhile_cons]
  cases firm c with
  | true => rfl
  | false =>
    simp only [Bool.not_false, if_true, List.filter_cons]
    split
    · simp; omega
    · simp

theorem leading_le (v : Text) : leading v ≤ utf8Len v := by
  induction v with
  | nil => exact Nat.le_refl _
  | cons c v ih =>
    have := c.utf8Size_pos
    rw [leading_cons]
    simp only [utf8Len, List.map_cons, List.sum_cons] at ih ⊢
    split
    · omega
    · split <;> omega

/-- What the loop ends with. -/
def looped (v : Text) (r : NumRun Unit) (neg : Bool) : NumRun Unit :=
  if v.any odd then ⟨⟨false, neg, true⟩, 0, 0, ()⟩
  else ⟨⟨r.st.atStart && !v.any firm, neg, r.st.nan⟩, r.start + (if r.st.atStart then leading v else 0), r.stop + utf8Len v, ()⟩

theorem looped_cons {c : Char} {v : Text} {r q : NumRun Unit} (ho : odd c = false) (h1 : q.st.nan = r.st.nan)
    (h2 : q.st.atStart = (r.st.atStart && !firm c)) (h3 : q.stop = r.stop + c.utf8Size)
    (h4 : q.start = r.start + if r.st.atStart && (t! "0+-").contains c && !firm c then 1 else 0) (neg : Bool) :
    looped v q neg = looped (c :: v) r neg := by
  unfold looped
  rw [List.any_cons, ho, Bool.false_or, List.any_cons, leading_cons, h1, h2, h3, h4]
  split
  · rfl
  · have hs : r.stop + c.utf8Size + utf8Len v = r.stop + utf8Len (c :: v) := by
      simp only [utf8Len, List.map_cons, List.sum_cons]; omega
    rw [hs]
    cases r.st.atStart with
    | false => rfl
    | true =>
      cases firm c with
      | true => simp
      | false => simp [Nat.add_assoc]

theorem numLoop_none (v : Text) (r : NumRun Unit) : ∃ neg, numLoop noWriter v r = .ok (looped v r neg) := by
  have hn : ∀ (t : Text) (r : NumRun Unit), NumRun.write noWriter t r = .ok r := fun t r => rfl
  induction v generalizing r with
  | nil =>
    refine ⟨r.st.neg, ?_⟩
    obtain ⟨⟨a, n, x⟩, b, e, ⟨⟩⟩ := r
    simp only [numLoop, looped, List.any_nil, Bool.false_eq_true, if_false, Bool.not_false, Bool.and_true]
    cases a <;> rfl
  | cons c v ih =>
    have step : ∀ q : NumRun Unit, odd c = false → q.st.nan = r.st.nan → q.st.atStart = (r.st.atStart && !firm c) →
        q.stop = r.stop + c.utf8Size →
        (q.start = r.start + if r.st.atStart && (t! "0+-").contains c && !firm c then 1 else 0) →
        ∃ neg, numLoop noWriter v q = .ok (looped (c :: v) r neg) := by
      intro q ho h1 h2 h3 h4
      obtain ⟨neg, h⟩ := ih q
      exact ⟨neg, by rw [h, looped_cons ho h1 h2 h3 h4]⟩
    rw [numLoop]
    split
    · rename_i h
      obtain ⟨rfl, h⟩ := h
      exact step _ (by decide) rfl (by rw [h]; rfl) rfl (by rw [h]; rfl)
    · rename_i hz
      split
      · rename_i hd
        have ho : odd c = false := by
          cases ho : odd c with
          | false => rfl
          | true => rw [(odd_firm c ho).2.2.1] at hd; cases hd
        have hs := firm_size c (.inl hd)
        have hf : (r.st.atStart && !firm c) = false := by
          rw [firm_iff, hd]
          cases ha : r.st.atStart with
          | false => rfl
          | true => simp [ha] at hz; simp [hz]
        have hl : (r.st.atStart && (t! "0+-").contains c && !firm c) = false := by
          rw [Bool.and_right_comm, hf]; rfl
        split
        · rw [hn]
          exact step _ ho rfl hf.symm (by rw [hs]) (by rw [hl]; rfl)
        · exact step _ ho rfl hf.symm (by rw [hs]) (by rw [hl]; rfl)
      · rename_i hd
        split
        · rename_i hd
          subst hd
          split
          · split
            · rw [hn]
              simp only [Res.bind]
              rw [hn]
              exact step _ (by decide) rfl (by rw [show firm '.' = true by decide]; simp) rfl (by rw [show firm '.' = true by decide]; simp)
            · simp only [Res.bind]
              rw [hn]
              exact step _ (by decide) rfl (by rw [show firm '.' = true by decide]; simp) rfl (by rw [show firm '.' = true by decide]; simp)
          · exact step _ (by decide) rfl (by rw [show firm '.' = true by decide]; simp) rfl (by rw [show firm '.' = true by decide]; simp)
        · rename_i hdot
          split
          · rename_i h
            obtain ⟨rfl, h⟩ := h
            exact step _ (by decide) rfl (by rw [h]; rfl) rfl (by rw [h]; rfl)
          · rename_i hm
            split
            · rename_i h
              obtain ⟨rfl, h⟩ := h
              exact step _ (by decide) rfl (by rw [h]; rfl) rfl (by rw [h]; rfl)
            · rename_i hp
              split
              · rename_i ho
                have ho : odd c = true := List.contains_iff_mem.mpr ho
                refine ⟨r.st.neg, ?_⟩
                rw [hn]
                simp only [Res.bind, looped, List.any_cons, ho, Bool.true_or, if_true]
              · rename_i ho
                have ho : odd c = false := by
                  cases h : odd c with
                  | false => rfl
                  | true => exact absurd (List.contains_iff_mem.mp h) ho
                have hf : firm c = false := by rw [firm_iff]; simp [hd, hdot]
                refine step _ ho rfl (by rw [hf]; simp) rfl ?_
                cases ha : r.st.atStart with
                | false => rfl
                | true =>
                  simp only [ha, and_true] at hz hm hp
                  have : (t! "0+-").contains c = false := by simp [hz, hm, hp]
                  rw [this]; rfl

theorem slice_none (v : Text) : sliceBytes v 0 0 = some [] := by
  rw [sliceBytes, if_pos (Nat.le_refl _), dropBytes.eq_1, Option.bind_some, Nat.sub_self, takeBytes.eq_1]

/-- A fragment, in a number that is not one that JSON has not. -/
theorem numFragment_none (v : Text) (a neg : Bool) : ∃ neg',
    numFragment noWriter v (⟨a, neg, false⟩, ()) =
      if a && cuts v then .panic else .ok (⟨a && !v.any odd && !v.any firm, neg', v.any odd⟩, ()) := by
  obtain ⟨neg', h⟩ := numLoop_none v { st := ⟨a, neg, false⟩, out := () }
  refine ⟨neg', ?_⟩
  rw [numFragment]
  simp only [Bool.false_eq_true, if_false, h]
  cases ho : v.any odd with
  | true =>
    simp only [looped, ho, if_true, slice_none, cuts]
    simp [noWriter]
  | false =>
    simp only [looped, ho, Bool.false_eq_true, if_false, Nat.zero_add, cuts, Bool.not_false, Bool.true_and, Bool.and_true]
    have hs := slice_end v (if a then leading v else 0) (by split; exact leading_le v; exact Nat.zero_le _)
    cases a with
    | false =>
      simp only [Bool.false_eq_true, if_false] at hs ⊢
      have hb : boundary v 0 = true := (boundary_iff v 0).mpr ⟨[], v, rfl, rfl⟩
      rw [hb] at hs
      obtain ⟨t, ht⟩ := Option.isSome_iff_exists.mp hs
      rw [ht]
      rfl
    | true =>
      simp only [if_true] at hs ⊢
      cases e : sliceBytes v (leading v) (utf8Len v) with
      | none => rw [e] at hs; simp only [← hs]; rfl
      | some t => rw [e] at hs; simp only [← hs]; rfl

end Sval.Json
