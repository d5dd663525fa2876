import Verif.Reader.LooseSpec
import Verif.Reader.Brackets
import Verif.Reader.Docs

set_option autoImplicit false

/-!
# Which texts the reader accepts
-/

namespace Sval.Reader

open Act
open Json (isWs Ws takeWhile_append)

section
variable (checks : Bool)

/-- How reading a text ends, inside of a string or not, with these brackets open. -/
def ends (i : Bool) (p : Position) (st : List Kind) (t : Text) : End Unit := (readFrom checks ⟨t, i, enc st, p⟩).res

variable {p p' : Position} {st st' : List Kind} {t : Text}

/-! ## Strings -/

theorem ends_str : ends checks true p st t = ((strFragment t).bind fun x =>
    if x.2.1 = true then readFrom checks ⟨x.2.2, true, enc st, p⟩ else readFrom checks ⟨x.2.2, false, enc st, p⟩).res := by
  rw [ends, readFrom_eq]
  simp only [resume, if_true, resumeStr, bind_def]
  rw [bind_assoc]
  obtain ⟨c, r⟩ : Act (Text × Bool × Text) := strFragment t
  cases r with
  | err => rfl
  | panic => rfl
  | ok x =>
    obtain ⟨f, b, r⟩ := x
    rw [act_pure]
    simp only [pre_bind, pure_bind, pre_res, call_bind]
    cases b
    · simp only [Bool.not_false, if_true, Bool.false_eq_true, if_false, pre_bind, pre_res]
      rw [maybeDone_next _ _ rfl]
    · simp only [Bool.not_true, Bool.false_eq_true, if_false, if_true, pure_def, pure_bind, next]

theorem ends_plain {c : Char} (hc : isPlain c = true) (ht : t ≠ []) : ends checks true p st (c :: t) = ends checks true p st t := by
  have hne : c ≠ '\\' := by rintro rfl; cases hc
  have e : strFragment (c :: t) = (match t.dropWhile isPlain with
      | '\\' :: r => .pure (c :: t.takeWhile isPlain, true, '\\' :: r)
      | _ :: r => .pure (c :: t.takeWhile isPlain, false, r)
      | [] => .pure (c :: t.takeWhile isPlain, false, [])) := by
    rw [strFragment]
    · simp only [List.takeWhile_cons, List.dropWhile_cons, hc, if_true, pure_def]
      cases t.dropWhile isPlain <;> rfl
    · exact nofun
    · intro r h; exact hne (List.cons.inj h).1
  rw [ends_str, e]
  match t, ht with
  | d :: t, _ =>
    by_cases hd : isPlain d = true
    · have hne' : d ≠ '\\' := by rintro rfl; cases hd
      have e' : strFragment (d :: t) = (match (d :: t).dropWhile isPlain with
          | '\\' :: r => .pure ((d :: t).takeWhile isPlain, true, '\\' :: r)
          | _ :: r => .pure ((d :: t).takeWhile isPlain, false, r)
          | [] => .pure ((d :: t).takeWhile isPlain, false, [])) := by
        rw [strFragment]
        · simp only [pure_def]
          cases (d :: t).dropWhile isPlain <;> rfl
        · exact nofun
        · intro r h; exact hne' (List.cons.inj h).1
      rw [ends_str, e']
      split <;> rfl
    · rw [List.dropWhile_cons, if_neg hd]
      have : d = '\\' ∨ d = '"' := by
        simp only [isPlain, Bool.and_eq_true, bne_iff_ne, ne_eq] at hd
        by_cases h : d = '\\'
        · exact .inl h
        · exact .inr (Decidable.by_contra fun h' => hd ⟨h, h'⟩)
      rcases this with rfl | rfl
      · rfl
      · rw [ends_str]; rfl

theorem isPlain_iff {c : Char} : isPlain c = true ↔ c ≠ '\\' ∧ c ≠ '"' := by
  simp [isPlain]

theorem ends_last {c : Char} (hc : isPlain c = true) : ends checks true p st [c] = ends checks false p st [] := by
  have hne : c ≠ '\\' := by rintro rfl; cases hc
  have e : strFragment [c] = .pure ([c], false, []) := by
    rw [strFragment]
    · simp only [List.takeWhile_cons, List.dropWhile_cons, hc, if_true, pure_def]
      rfl
    · exact nofun
    · intro r h; exact hne (List.cons.inj h).1
  rw [ends_str, e]
  rfl

theorem ends_quote : ends checks true p st ('"' :: t) = ends checks false p st t := by
  rw [ends_str]; rfl

theorem ends_esc {e : Char} (h : e ∈ ['n', 'r', '"', '\\']) :
    ends checks true p st ('\\' :: e :: t) = ends checks true p st t := by
  rw [ends_str]
  simp only [List.mem_cons, List.not_mem_nil, or_false] at h
  rcases h with rfl | rfl | rfl | rfl <;> rfl

theorem ends_bad {e : Char} (h : e ∉ ['n', 'r', '"', '\\']) : ends checks true p st ('\\' :: e :: t) = .panic := by
  rw [ends_str]
  have : strFragment ('\\' :: e :: t) = .panic := by
    simp only [List.mem_cons, List.not_mem_nil, or_false, not_or] at h
    unfold strFragment
    simp only
    split <;> simp_all
  rw [this]
  rfl

theorem ends_body {b r : Text} (h : Body b) (hr : r ≠ []) : ends checks true p st (b ++ r) = ends checks true p st r := by
  induction h with
  | nil => rfl
  | raw c h1 h2 _ ih => rw [List.cons_append, ends_plain checks (isPlain_iff.2 ⟨h1, h2⟩) (by simp [hr]), ih]
  | esc e h1 _ ih => rw [List.cons_append, List.cons_append, ends_esc checks h1, ih]

theorem dangling_body {b r : Text} (h : Body b) (hr : r ≠ []) : dangling true (b ++ r) = dangling true r := by
  induction h with
  | nil => rfl
  | @raw c t h1 h2 _ ih =>
    rw [List.cons_append, dangling, ih]
    · simp [hr]
    · exact h2
    · intro _ _ h _; exact h1 h
  | esc e h1 _ ih => rw [List.cons_append, List.cons_append, dangling, ih]

/-- What a text is from the inside of a string on. -/
theorem lex_str : ∀ s : Text, (∃ b r, Body b ∧ s = b ++ '"' :: r) ∨ (∃ b c, Body b ∧ isPlain c = true ∧ s = b ++ [c]) ∨
    (∃ b x, Body b ∧ s = b ++ '\\' :: x ∧ (x = [] ∨ ∃ e r, x = e :: r ∧ e ∉ ['n', 'r', '"', '\\'])) ∨
    (dangling true s = true ∧ ∀ p st, ends checks true p st s = .panic)
  | [] => .inr (.inr (.inr ⟨rfl, fun _ _ => by rw [ends_str]; rfl⟩))
  | c :: r => by
    by_cases h1 : c = '"'
    · subst h1; exact .inl ⟨[], r, .nil, rfl⟩
    · by_cases h2 : c = '\\'
      · subst h2
        cases r with
        | nil => exact .inr (.inr (.inl ⟨[], [], .nil, rfl, .inl rfl⟩))
        | cons e r =>
          by_cases h : e ∈ ['n', 'r', '"', '\\']
          · rcases lex_str r with ⟨b, r', hb, rfl⟩ | ⟨b, c, hb, hc, rfl⟩ | ⟨b, x, hb, rfl, hx⟩ | ⟨h1, h2⟩
            · exact .inl ⟨_, r', hb.esc e h, rfl⟩
            · exact .inr (.inl ⟨_, c, hb.esc e h, hc, rfl⟩)
            · exact .inr (.inr (.inl ⟨_, x, hb.esc e h, rfl, hx⟩))
            · exact .inr (.inr (.inr ⟨by rw [dangling, h1], fun p st => by rw [ends_esc checks h, h2]⟩))
          · exact .inr (.inr (.inl ⟨[], _, .nil, rfl, .inr ⟨e, r, rfl, h⟩⟩))
      · have hc : isPlain c = true := isPlain_iff.2 ⟨h2, h1⟩
        by_cases hr : r = []
        · subst hr; exact .inr (.inl ⟨[], c, .nil, hc, rfl⟩)
        · rcases lex_str r with ⟨b, r', hb, rfl⟩ | ⟨b, d, hb, hd, rfl⟩ | ⟨b, x, hb, rfl, hx⟩ | ⟨h3, h4⟩
          · exact .inl ⟨_, r', hb.raw c h2 h1, rfl⟩
          · exact .inr (.inl ⟨_, d, hb.raw c h2 h1, hd, rfl⟩)
          · exact .inr (.inr (.inl ⟨_, x, hb.raw c h2 h1, rfl, hx⟩))
          · refine .inr (.inr (.inr ⟨?_, fun p st => by rw [ends_plain checks hc hr, h4]⟩))
            rw [dangling, h3]
            · simp [hr]
            · exact h1
            · intro _ _ h _; exact h2 h

/-- The position after a string has begun. -/
def keyed : Position → Position
  | .seqEmpty => .seqElem
  | .mapEmpty => .mapKey
  | p => p

theorem ends_begin : ends checks false p st ('"' :: t) = ends checks true (keyed p) st t := by
  rw [ends_str, ends, readFrom_scan]
  have hb : strBegin ⟨t, false, enc st, p⟩ = (Act.pure (⟨t, false, enc st, keyed p⟩ : St)).pre (strBegin ⟨t, false, enc st, p⟩).calls := by
    cases p <;> rfl
  simp only [scan, beginStr, bind_def]
  rw [hb]
  simp only [pre_bind, pure_bind, pre_res]
  rw [bind_assoc]
  obtain ⟨c, r⟩ : Act (Text × Bool × Text) := strFragment t
  cases r with
  | err => rfl
  | panic => rfl
  | ok x =>
    obtain ⟨f, b, r⟩ := x
    rw [act_pure]
    simp only [pre_bind, pure_bind, pre_res, call_bind]
    cases b
    · simp only [Bool.not_false, if_true, Bool.false_eq_true, if_false, pre_bind, pre_res]
      rw [maybeDone_next _ _ rfl]
    · simp only [Bool.not_true, Bool.false_eq_true, if_false, if_true, pure_def, pure_bind, next]

/-! ## Steps -/

/-- The positions that go with the brackets that are open. -/
def Valid : Position → List Kind → Prop
  | .root, st => st = []
  | .mapEmpty, st => ∃ st', st = .map :: st'
  | .mapKey, st => ∃ st', st = .map :: st'
  | .mapValue, st => ∃ st', st = .map :: st'
  | .seqEmpty, st => ∃ st', st = .seq :: st'
  | .seqElem, st => ∃ st', st = .seq :: st'

/-- There was room for the brackets that are open. -/
def Held : List Kind → Prop
  | [] => True
  | _ :: st => Room st ∧ Held st

/-- The parts of a text that are read in one go. -/
inductive Move : Position → List Kind → Text → Position → List Kind → Prop
  | ws {p : Position} {st : List Kind} {c : Char} : isWs c = true → Move p st [c] p st
  | number {p : Position} {st : List Kind} {t : Text} : At p st → Number t → Move p st t (past p) st
  | word {p : Position} {st : List Kind} {t : Text} : At p st → t ∈ [t! "true", t! "false", t! "null"] → Move p st t (past p) st
  | str {p : Position} {st : List Kind} {t : Text} : Str t → Move p st t (keyed p) st
  | openMap {p : Position} {st : List Kind} : At p st → Room st → Move p st ['{'] .mapEmpty (.map :: st)
  | openSeq {p : Position} {st : List Kind} : At p st → Room st → Move p st ['['] .seqEmpty (.seq :: st)
  | closeMap {p : Position} {st : List Kind} : p = .mapEmpty ∨ p = .mapValue → Move p (.map :: st) ['}'] (innermost st) st
  | closeSeq {p : Position} {st : List Kind} : p = .seqEmpty ∨ p = .seqElem → Move p (.seq :: st) [']'] (innermost st) st
  | colon {st : List Kind} : Move .mapKey st [':'] .mapValue st
  | commaSeq {st : List Kind} : Move .seqElem st [','] .seqElem st
  | commaMap {st : List Kind} : Move .mapValue st [','] .mapKey st

theorem At.valid (h : At p st) : Valid p st := by cases p <;> first | exact h | exact h.elim

theorem innermost_valid : Valid (innermost st) st := by
  match st with
  | [] => rfl
  | .map :: st => exact ⟨st, rfl⟩
  | .seq :: st => exact ⟨st, rfl⟩

theorem Move.valid {x : Text} (h : Move p st x p' st') (hv : Valid p st) (hh : Held st) : Valid p' st' ∧ Held st' := by
  cases h with
  | ws => exact ⟨hv, hh⟩
  | number => exact ⟨by cases p <;> exact hv, hh⟩
  | word => exact ⟨by cases p <;> exact hv, hh⟩
  | str => exact ⟨by cases p <;> exact hv, hh⟩
  | openMap _ hr => exact ⟨⟨_, rfl⟩, hr, hh⟩
  | openSeq _ hr => exact ⟨⟨_, rfl⟩, hr, hh⟩
  | closeMap => exact ⟨innermost_valid, hh.2⟩
  | closeSeq => exact ⟨innermost_valid, hh.2⟩
  | colon => exact ⟨hv, hh⟩
  | commaSeq => exact ⟨hv, hh⟩
  | commaMap => exact ⟨hv, hh⟩

theorem Move.fits {x r : Text} (h : Move p st x p' st') (hf : Fits checks st (x ++ r)) : Fits checks st' r := by
  have hs : Fits checks st r := hf.suffix (List.suffix_append x r)
  cases h with
  | openMap => exact hf.open (.inr rfl) _
  | openSeq => exact hf.open (.inl rfl) _
  | closeMap =>
    rcases hs with h | h
    · exact .inl h
    · exact .inr (by simp only [List.length_cons] at h; omega)
  | closeSeq =>
    rcases hs with h | h
    · exact .inl h
    · exact .inr (by simp only [List.length_cons] at h; omega)
  | _ => exact hs

theorem ends_nil : ends checks false p st [] = if st = [] then .ok () else .err := by
  rw [ends, readFrom_scan]
  simp only [scan, maybeDone, ne_eq, not_true_eq_false, if_false, enc_finish]
  cases st <;> rfl

/-- One step of the reader. -/
inductive View (p : Position) (st : List Kind) : Text → Prop
  | nil : View p st []
  | move {x r : Text} {p' : Position} {st' : List Kind} (h : Move p st x p' st') (hx : x ≠ [])
      (h1 : ends checks false p st (x ++ r) = ends checks false p' st' r)
      (h2 : ∀ u, ends checks false p st (x ++ r ++ ' ' :: u) = ends checks false p' st' (r ++ ' ' :: u))
      (h3 : dangling false (x ++ r) = dangling false r) : View p st (x ++ r)
  | unclosed {t : Text} (h : Unclosed t) (h1 : ends checks false p st t = ends checks false (keyed p) st [])
      (h2 : dangling false t = false) : View p st t
  | stuck {t : Text} (h : ends checks false p st t = .panic)
      (h1 : dangling false t = true ∨ ∀ u, ends checks false p st (t ++ ' ' :: u) = .panic) : View p st t
  | full {t : Text} (h : ends checks false p st t ≠ .ok ()) (h1 : ¬ st.length + opens t ≤ 91) : View p st t

theorem View.one {c : Char} {r : Text} (h : Move p st [c] p' st') (hc : c ≠ '"')
    (he : ∀ r, ends checks false p st (c :: r) = ends checks false p' st' r) : View checks p st (c :: r) := by
  have := View.move (checks := checks) (r := r) h (by simp) (he r) (fun u => he _) (by simp [dangling, hc])
  exact this

theorem View.no {c : Char} {r : Text} (he : ∀ r, ends checks false p st (c :: r) = .panic) : View checks p st (c :: r) :=
  .stuck (he r) (.inr fun _ => he _)

theorem view_str {r : Text} : View checks p st ('"' :: r) := by
  rcases lex_str checks r with ⟨b, r, hb, rfl⟩ | ⟨b, c, hb, hc, rfl⟩ | ⟨b, x, hb, rfl, hx⟩ | ⟨h1, h2⟩
  · have h : ∀ r, ends checks false p st ('"' :: (b ++ '"' :: r)) = ends checks false (keyed p) st r := fun r => by
      rw [ends_begin, ends_body checks hb (by simp), ends_quote]
    have e (r : Text) : '"' :: (b ++ '"' :: r) = ('"' :: (b ++ ['"'])) ++ r := by simp
    rw [e]
    refine .move (.str ⟨b, hb, rfl⟩) (by simp) (by rw [← e, h]) (fun u => by rw [List.append_assoc, ← e, h]) ?_
    rw [← e]
    simp only [dangling, if_true]
    rw [dangling_body hb (by simp)]
    rfl
  · refine .unclosed ⟨b, c, hb, (isPlain_iff.1 hc).1, (isPlain_iff.1 hc).2, rfl⟩ ?_ ?_
    · rw [ends_begin, ends_body checks hb (by simp), ends_last checks hc]
    · simp only [dangling, if_true]
      rw [dangling_body hb (by simp), dangling]
      · rfl
      · exact (isPlain_iff.1 hc).2
      · intro _ _ h _; exact (isPlain_iff.1 hc).1 h
  · rcases hx with rfl | ⟨e, r, rfl, he⟩
    · refine .stuck ?_ (.inr fun u => ?_)
      · rw [ends_begin, ends_body checks hb (by simp), ends_str]; rfl
      · rw [List.cons_append, List.append_assoc, ends_begin, ends_body checks hb (by simp)]
        exact ends_bad checks (by decide)
    · refine .stuck ?_ (.inr fun u => ?_)
      · rw [ends_begin, ends_body checks hb (by simp), ends_bad checks he]
      · rw [List.cons_append, List.append_assoc, ends_begin, ends_body checks hb (by simp)]
        exact ends_bad checks he
  · exact .stuck (by rw [ends_begin, h2]) (.inl (by simpa [dangling] using h1))

theorem dangling_skip {n r : Text} (h : ∀ c ∈ n, c ≠ '"') : dangling false (n ++ r) = dangling false r := by
  induction n with
  | nil => rfl
  | cons c n ih =>
    rw [List.cons_append, dangling, if_neg (h c (by simp)), ih fun d hd => h d (by simp [hd])]

theorem Valid.at (h : Valid p st) : At p st ∨ p = .mapEmpty ∨ p = .mapKey := by
  cases p <;> first | exact .inl h | exact .inr (.inl rfl) | exact .inr (.inr rfl)

theorem numberChar_iff {c : Char} : isNumberChar c = true ↔ isDigit c = true ∨ c ∈ ['-', '+', '.', 'e'] := by
  simp only [isNumberChar, Bool.or_eq_true, beq_iff_eq, List.mem_cons, List.not_mem_nil, or_false]
  constructor
  · rintro ((((h | h) | h) | h) | h) <;> simp [h]
  · rintro (h | h | h | h | h) <;> simp [h]

theorem isDigit_range {c : Char} (h : isNumberChar c = true) : c ≠ '"' ∧ c ≠ ' ' := by
  constructor <;> (rintro rfl; revert h; decide)

theorem view_number {c : Char} {r : Text} (hc : c = '-' ∨ isDigit c = true) (hv : Valid p st) : View checks p st (c :: r) := by
  rcases hv.at with ha | hp
  · have hn : isNumberChar c = true := by
      rcases hc with rfl | h
      · rfl
      · exact isDigit_numberChar h
    have e : c :: r = (c :: r).takeWhile isNumberChar ++ (c :: r).dropWhile isNumberChar := (List.takeWhile_append_dropWhile).symm
    have ht : (c :: r).takeWhile isNumberChar = c :: r.takeWhile isNumberChar := by rw [List.takeWhile_cons, if_pos hn]
    have hd : (c :: r).dropWhile isNumberChar = r.dropWhile isNumberChar := by rw [List.dropWhile_cons, if_pos hn]
    have hall : ((c :: r).takeWhile isNumberChar).all isNumberChar = true := List.all_takeWhile
    have hhead : ∀ d, (r.dropWhile isNumberChar).head? = some d → isNumberChar d = false := by
      intro d hd
      have := List.head?_dropWhile_not isNumberChar r
      rw [hd] at this
      simpa using this
    have key : ∀ r', (∀ d, r'.head? = some d → isNumberChar d = false) →
        ends checks false p st ((c :: r).takeWhile isNumberChar ++ r') = ends checks false (past p) st r' := by
      intro r' hr'
      rw [ends, read_number checks _ r' ⟨c, _, ht, hc⟩ hall hr' _ _ ha]
      rfl
    rw [e, hd]
    refine .move (.number ha ⟨c, _, ht, hc, ?_⟩) (by rw [ht]; simp) (key _ hhead) (fun u => ?_) ?_
    · intro d hd
      have : d ∈ (c :: r).takeWhile isNumberChar := by rw [ht]; simp [hd]
      exact numberChar_iff.1 (List.all_eq_true.1 hall d this)
    · rw [List.append_assoc]
      refine key _ fun d hd => ?_
      cases hr : r.dropWhile isNumberChar with
      | nil => rw [hr] at hd; simp at hd; subst hd; rfl
      | cons x y => rw [hr] at hd hhead; exact hhead d hd
    · exact dangling_skip fun d hd => (isDigit_range (List.all_eq_true.1 hall d hd)).1
  · refine .no checks fun r => ?_
    rw [ends, readFrom_scan, scan_number _ _ _ _ hc]
    rcases hp with rfl | rfl <;> rfl

theorem prefix_space {w t u : Text} (hw : ' ' ∉ w) (h : w <+: t ++ ' ' :: u) : w <+: t := by
  induction w generalizing t with
  | nil => exact List.nil_prefix
  | cons c w ih =>
    cases t with
    | nil =>
      obtain ⟨x, hx⟩ := h
      exact absurd (List.cons.inj hx).1 (by rintro rfl; exact hw (by simp))
    | cons d t =>
      rw [List.cons_append, List.cons_prefix_cons] at h
      rw [List.cons_prefix_cons]
      exact ⟨h.1, ih (fun hm => hw (by simp [hm])) h.2⟩

theorem view_word {w : Text} {x : Token} (hw : w ∈ [t! "true", t! "false", t! "null"]) (hne : t ≠ [])
    (hs : ∀ r, ends checks false p st (t ++ r) = ((word w x ⟨t ++ r, false, enc st, p⟩).bind (next checks)).res)
    (hv : Valid p st) : View checks p st t := by
  have hsp : ' ' ∉ w ∧ '"' ∉ w ∧ w ≠ [] := by clear hs; revert w; decide
  have hs0 := hs []
  rw [List.append_nil] at hs0
  by_cases hp : w <+: t
  · obtain ⟨r, rfl⟩ := hp
    rcases hv.at with ha | hp
    · refine .move (.word ha hw) hsp.2.2 ?_ (fun u => ?_) (dangling_skip fun c hc e => hsp.2.1 (e ▸ hc))
      · rw [hs0, read_word checks w x r _ p ha]; rfl
      · rw [hs, List.append_assoc, read_word checks w x _ _ p ha]; rfl
    · have key : ∀ r, ((word w x ⟨w ++ r, false, enc st, p⟩).bind (next checks)).res = .panic := by
        intro r
        unfold word
        rw [if_pos (by simp)]
        rcases hp with rfl | rfl <;> rfl
      exact .stuck (by rw [hs0, key]) (.inr fun u => by rw [hs, List.append_assoc, key])
  · have key : ∀ r, ¬ w <+: r → ((word w x ⟨r, false, enc st, p⟩).bind (next checks)).res = .panic := by
      intro r hr
      unfold word
      rw [if_neg (by simpa using hr)]
      rfl
    exact .stuck (by rw [hs0, key _ hp]) (.inr fun u => by rw [hs, key _ fun h => hp (prefix_space hsp.1 h)])

theorem view (t : Text) (hv : Valid p st) (hh : Held st) (hf : Fits checks st t) : View checks p st t := by
  match t with
  | [] => exact .nil
  | c :: r =>
    by_cases h1 : c = '"'
    · subst h1; exact view_str checks
    by_cases h2 : isWs c = true
    · refine .one checks (.ws h2) h1 fun r => ?_
      have := read_ws checks [c] r (by simp [Ws, h2]) (enc st) p
      rw [ends]
      exact congrArg Act.res this
    by_cases h3 : c = '-' ∨ isDigit c = true
    · exact view_number checks h3 hv
    by_cases h4 : c = 't'
    · subst h4
      exact view_word checks (w := t! "true") (x := .bool true) (by simp) (by simp) (fun r => by rw [ends, readFrom_scan]; rfl) hv
    by_cases h5 : c = 'f'
    · subst h5
      exact view_word checks (w := t! "false") (x := .bool false) (by simp) (by simp) (fun r => by rw [ends, readFrom_scan]; rfl) hv
    by_cases h6 : c = 'n'
    · subst h6
      exact view_word checks (w := t! "null") (x := .null) (by simp) (by simp) (fun r => by rw [ends, readFrom_scan]; rfl) hv
    by_cases h7 : c = ':'
    · subst h7
      by_cases hp : p = .mapKey
      · subst hp
        exact .one checks .colon (by decide) fun r => by rw [ends, read_colon]; rfl
      · refine .no checks fun r => ?_
        rw [ends, readFrom_scan]
        cases p <;> first | rfl | exact absurd rfl hp
    by_cases h8 : c = ','
    · subst h8
      by_cases hp : p = .seqElem
      · subst hp
        exact .one checks .commaSeq (by decide) fun r => by rw [ends, read_comma_seq]; rfl
      by_cases hp' : p = .mapValue
      · subst hp'
        exact .one checks .commaMap (by decide) fun r => by rw [ends, read_comma_map]; rfl
      · refine .no checks fun r => ?_
        rw [ends, readFrom_scan]
        cases p <;> first | rfl | exact absurd rfl hp | exact absurd rfl hp'
    by_cases h9 : c = '}'
    · subst h9
      by_cases hp : p = .mapEmpty ∨ p = .mapValue
      · have : ∃ st', st = .map :: st' := by rcases hp with rfl | rfl <;> exact hv
        obtain ⟨st', rfl⟩ := this
        refine .one checks (.closeMap hp) (by decide) fun r => ?_
        rcases hp with rfl | rfl
        · rw [ends, read_map_end checks r st' hh.1 [] .mapEmpty (by rintro ⟨_, _, _, _⟩ rfl; rfl)]; rfl
        · rw [ends, read_map_end checks r st' hh.1 [.mapValueEnd] .mapValue (by rintro ⟨_, _, _, _⟩ rfl; rfl)]; rfl
      · refine .no checks fun r => ?_
        rw [ends, readFrom_scan]
        cases p <;> first | rfl | exact absurd (.inl rfl) hp | exact absurd (.inr rfl) hp
    by_cases h10 : c = ']'
    · subst h10
      by_cases hp : p = .seqEmpty ∨ p = .seqElem
      · have : ∃ st', st = .seq :: st' := by rcases hp with rfl | rfl <;> exact hv
        obtain ⟨st', rfl⟩ := this
        refine .one checks (.closeSeq hp) (by decide) fun r => ?_
        rcases hp with rfl | rfl
        · rw [ends, read_seq_end checks r st' hh.1 [] .seqEmpty (by rintro ⟨_, _, _, _⟩ rfl; rfl)]; rfl
        · rw [ends, read_seq_end checks r st' hh.1 [.seqValueEnd] .seqElem (by rintro ⟨_, _, _, _⟩ rfl; rfl)]; rfl
      · refine .no checks fun r => ?_
        rw [ends, readFrom_scan]
        cases p <;> first | rfl | exact absurd (.inl rfl) hp | exact absurd (.inr rfl) hp
    by_cases h11 : c = '{'
    · subst h11
      rcases hv.at with ha | hp
      · by_cases hr : Room st
        · exact .one checks (.openMap ha hr) (by decide) fun r => by rw [ends, read_map_begin checks r st p ha hr]; rfl
        · have hl : ¬ st.length + opens ('{' :: r) ≤ 91 := fun h => hr (room_fits st (by
            have : opens ('{' :: r) = opens r + 1 := by simp [opens]
            omega))
          exact .full (read_map_refused checks r st p ha hr (hf.resolve_right hl)) hl
      · refine .no checks fun r => ?_
        rw [ends, readFrom_scan]
        rcases hp with rfl | rfl <;> rfl
    by_cases h12 : c = '['
    · subst h12
      rcases hv.at with ha | hp
      · by_cases hr : Room st
        · exact .one checks (.openSeq ha hr) (by decide) fun r => by rw [ends, read_seq_begin checks r st p ha hr]; rfl
        · have hl : ¬ st.length + opens ('[' :: r) ≤ 91 := fun h => hr (room_fits st (by
            have : opens ('[' :: r) = opens r + 1 := by simp [opens]
            omega))
          exact .full (read_seq_refused checks r st p ha hr (hf.resolve_right hl)) hl
      · refine .no checks fun r => ?_
        rw [ends, readFrom_scan]
        rcases hp with rfl | rfl <;> rfl
    · refine .no checks fun r => ?_
      have : scan checks ⟨c :: r, false, enc st, p⟩ (c :: r) = .panic := by
        unfold scan
        simp only
        split
        all_goals first
          | contradiction
          | (exact absurd rfl h3.1)
          | skip
        all_goals simp_all [isWs]
      rw [ends, readFrom_scan, this]
      rfl

/-! ## The grammar, from a place inside of a text on -/

/-- What closes a bracket. -/
def closer : Kind → Char
  | .map => '}'
  | .seq => ']'

/-- What can come before the innermost bracket is closed. -/
def Within (R : List Kind → Prop) : Position → List Kind → Text → Prop
  | .root, _, _ => False
  | .mapEmpty, st, a => Ws a ∨ ∃ w k m, Ws w ∧ Str k ∧ Loose R .members st m ∧ a = w ++ (k ++ m)
  | .mapKey, st, a => Loose R .members st a
  | .mapValue, st, a => Loose R .items st a ∨ ∃ b m, Loose R .items st b ∧ Loose R .members st m ∧ a = b ++ ',' :: m
  | .seqEmpty, st, a => Ws a ∨ ∃ w x b, Ws w ∧ Loose R .item st x ∧ Loose R .elems st b ∧ a = w ++ (x ++ b)
  | .seqElem, st, a => Loose R .elems st a

/-- What can come before the end. -/
def Finish (R : List Kind → Prop) : Position → List Kind → Text → Prop
  | p, [], t => p = .root ∧ LooseDoc R t
  | p, k :: st, t => ∃ a r, t = a ++ closer k :: r ∧ Within R p (k :: st) a ∧ Finish R (innermost st) st r

theorem Within.ws {R : List Kind → Prop} {c : Char} {a : Text} (hc : isWs c = true) (h : Within R p st a) :
    Within R p st (c :: a) := by
  have hw {w : Text} (h : Ws w) : Ws (c :: w) := by simpa [Ws, hc] using h
  cases p with
  | root => exact h
  | mapEmpty =>
    rcases h with h | ⟨w, k, m, h1, h2, h3, rfl⟩
    · exact .inl (hw h)
    · exact .inr ⟨c :: w, k, m, hw h1, h2, h3, rfl⟩
  | mapKey => exact .membersWs hc h
  | mapValue =>
    rcases h with h | ⟨b, m, h1, h2, rfl⟩
    · exact .inl (.itemsWs hc h)
    · exact .inr ⟨c :: b, m, .itemsWs hc h1, h2, rfl⟩
  | seqEmpty =>
    rcases h with h | ⟨w, x, b, h1, h2, h3, rfl⟩
    · exact .inl (hw h)
    · exact .inr ⟨c :: w, x, b, hw h1, h2, h3, rfl⟩
  | seqElem => exact .elemsWs hc h

/-- An item before the rest. -/
theorem Finish.item {R : List Kind → Prop} {x r : Text} (ha : At p st) (hx : Loose R .item st x) (h : Finish R (past p) st r) :
    Finish R p st (x ++ r) := by
  cases p with
  | root =>
    cases ha
    obtain ⟨_, a, b, rfl, h1, h2⟩ := h
    exact ⟨rfl, x ++ a, b, by simp, .items hx h1, h2⟩
  | mapEmpty => exact ha.elim
  | mapKey => exact ha.elim
  | mapValue =>
    obtain ⟨st, rfl⟩ := ha
    obtain ⟨a, r, rfl, h1, h2⟩ := h
    refine ⟨x ++ a, r, by simp, ?_, h2⟩
    rcases h1 with h1 | ⟨b, m, h1, h3, rfl⟩
    · exact .inl (.items hx h1)
    · exact .inr ⟨x ++ b, m, .items hx h1, h3, by simp⟩
  | seqEmpty =>
    obtain ⟨st, rfl⟩ := ha
    obtain ⟨a, r, rfl, h1, h2⟩ := h
    exact ⟨x ++ a, r, by simp, .inr ⟨[], x, a, rfl, hx, h1, rfl⟩, h2⟩
  | seqElem =>
    obtain ⟨st, rfl⟩ := ha
    obtain ⟨a, r, rfl, h1, h2⟩ := h
    exact ⟨x ++ a, r, by simp, .elems hx h1, h2⟩

theorem Within.mapEmpty_item {R : List Kind → Prop} {a : Text} (hr : R st) (h : Within R .mapEmpty (.map :: st) a) :
    Loose R .item st ('{' :: (a ++ ['}'])) := by
  rcases h with h | ⟨w, k, m, h1, h2, h3, rfl⟩
  · exact .mapEmpty hr h
  · have := Loose.map hr h1 h2 h3
    simpa using this

theorem Within.seqEmpty_item {R : List Kind → Prop} {a : Text} (hr : R st) (h : Within R .seqEmpty (.seq :: st) a) :
    Loose R .item st ('[' :: (a ++ [']'])) := by
  rcases h with h | ⟨w, k, m, h1, h2, h3, rfl⟩
  · exact .seqEmpty hr h
  · have := Loose.seq hr h1 h2 h3
    simpa using this

/-- A step before the rest. -/
theorem Finish.move {x r : Text} (hm : Move p st x p' st') (hv : Valid p st) (h : Finish Room p' st' r) : Finish Room p st (x ++ r) := by
  cases hm with
  | @ws _ _ c hc =>
    match st with
    | [] =>
      obtain ⟨rfl, a, b, rfl, h1, h2⟩ := h
      exact ⟨rfl, c :: a, b, rfl, .itemsWs hc h1, h2⟩
    | k :: st =>
      obtain ⟨a, r, rfl, h1, h2⟩ := h
      exact ⟨c :: a, r, rfl, h1.ws hc, h2⟩
  | number ha hn => exact .item ha (.number hn) h
  | word ha hn => exact .item ha (.word hn) h
  | str hs =>
    rcases hv.at with ha | rfl | rfl
    · refine .item ha (.str hs) ?_
      have : keyed p = past p := by cases p <;> first | rfl | exact ha.elim
      rwa [this] at h
    · obtain ⟨st, rfl⟩ := hv
      obtain ⟨a, r, rfl, h1, h2⟩ := h
      exact ⟨x ++ a, r, by simp, .inr ⟨[], x, a, rfl, hs, h1, rfl⟩, h2⟩
    · obtain ⟨st, rfl⟩ := hv
      obtain ⟨a, r, rfl, h1, h2⟩ := h
      exact ⟨x ++ a, r, by simp, .membersKey hs h1, h2⟩
  | openMap ha hr =>
    obtain ⟨a, r, rfl, h1, h2⟩ := h
    have := Finish.item ha (h1.mapEmpty_item hr) (by rwa [ha.innermost] at h2)
    simpa [closer] using this
  | openSeq ha hr =>
    obtain ⟨a, r, rfl, h1, h2⟩ := h
    have := Finish.item ha (h1.seqEmpty_item hr) (by rwa [ha.innermost] at h2)
    simpa [closer] using this
  | closeMap hp =>
    refine ⟨[], r, rfl, ?_, h⟩
    rcases hp with rfl | rfl
    · exact .inl rfl
    · exact .inl .itemsNil
  | closeSeq hp =>
    refine ⟨[], r, rfl, ?_, h⟩
    rcases hp with rfl | rfl
    · exact .inl rfl
    · exact .elemsNil
  | colon =>
    obtain ⟨st, rfl⟩ := hv
    obtain ⟨a, r, rfl, h1, h2⟩ := h
    refine ⟨':' :: a, r, by simp, ?_, h2⟩
    rcases h1 with h1 | ⟨b, m, h1, h3, rfl⟩
    · exact .membersLast h1
    · exact .membersMore h1 h3
  | commaSeq =>
    obtain ⟨st, rfl⟩ := hv
    obtain ⟨a, r, rfl, h1, h2⟩ := h
    exact ⟨',' :: a, r, by simp, .elemsComma h1, h2⟩
  | commaMap =>
    obtain ⟨st, rfl⟩ := hv
    obtain ⟨a, r, rfl, h1, h2⟩ := h
    exact ⟨',' :: a, r, by simp, .inr ⟨[], a, .itemsNil, h1, rfl⟩, h2⟩

/-! ## Closing what is open -/

/-- The rest of a key, if there has to be one. -/
def closeKey : Position → Text
  | .mapKey => [':']
  | _ => []

/-- What closes the brackets that are open. -/
def closing' (p : Position) (st : List Kind) : Text := closeKey p ++ st.map closer

theorem finish_closers (hv : Valid p st) : Finish Room p st (closing' p st) := by
  have hall : ∀ st, Finish Room (innermost st) st (st.map closer) := by
    intro st
    induction st with
    | nil => exact ⟨rfl, [], [], rfl, .itemsNil, .inl rfl⟩
    | cons k st ih =>
      refine ⟨[], st.map closer, rfl, ?_, ih⟩
      cases k
      · exact .inl .itemsNil
      · exact .elemsNil
  cases p with
  | root => cases hv; exact ⟨rfl, [], [], rfl, .itemsNil, .inl rfl⟩
  | mapKey =>
    obtain ⟨st, rfl⟩ := hv
    exact ⟨[':'], _, rfl, .membersLast .itemsNil, hall st⟩
  | mapEmpty => obtain ⟨st, rfl⟩ := hv; exact ⟨[], _, rfl, .inl rfl, hall st⟩
  | mapValue => obtain ⟨st, rfl⟩ := hv; exact ⟨[], _, rfl, .inl .itemsNil, hall st⟩
  | seqEmpty => obtain ⟨st, rfl⟩ := hv; exact ⟨[], _, rfl, .inl rfl, hall st⟩
  | seqElem => obtain ⟨st, rfl⟩ := hv; exact ⟨[], _, rfl, .elemsNil, hall st⟩

theorem closers_closing : Closers (closing' p st) := by
  intro c hc
  simp only [closing', List.mem_append, List.mem_map] at hc
  rcases hc with hc | ⟨k, _, rfl⟩
  · cases p <;> simp [closeKey] at hc
    subst hc; decide
  · cases k <;> decide

theorem Body.append {a b : Text} (ha : Body a) (hb : Body b) : Body (a ++ b) := by
  induction ha with
  | nil => exact hb
  | raw c h1 h2 _ ih => exact .raw c h1 h2 ih
  | esc e h1 _ ih => exact .esc e h1 ih

/-- What is accepted is in the grammar, and what is refused is the start of something in the grammar. -/
theorem finish_ends (n : Nat) : ∀ (t : Text) (p : Position) (st : List Kind), t.length < n → Valid p st → Held st → Fits checks st t →
    (ends checks false p st t = .ok () → Finish Room p st t) ∧
    (st.length + opens t ≤ 91 → ends checks false p st t = .err →
      dangling false t = false ∧ ∃ u, Closers u ∧ Finish Room p st (t ++ ' ' :: u)) := by
  induction n with
  | zero => intro t p st h; omega
  | succ n ih =>
    intro t p st hn hv hh hf
    cases view checks t hv hh hf with
    | nil =>
      rw [ends_nil]
      constructor
      · intro h
        by_cases hs : st = []
        · subst hs
          cases p <;> first | exact ⟨rfl, [], [], rfl, .itemsNil, .inl rfl⟩ | (obtain ⟨_, hv⟩ := hv; cases hv)
        · rw [if_neg hs] at h; cases h
      · intro _ _
        exact ⟨rfl, _, closers_closing, .move (x := [' ']) (.ws rfl) hv (finish_closers hv)⟩
    | @move x r p' st' hm hx h1 h2 h3 =>
      obtain ⟨hv', hh'⟩ := hm.valid hv hh
      have hlt : r.length < n := by
        have : 0 < x.length := List.length_pos_iff.2 hx
        rw [List.length_append] at hn; omega
      obtain ⟨i1, i2⟩ := ih r p' st' hlt hv' hh' (hm.fits checks hf)
      rw [h1, h3]
      refine ⟨fun h => .move hm hv (i1 h), fun hl h => ?_⟩
      have hl' : st'.length + opens r ≤ 91 := (hm.fits false (.inr hl)).resolve_left (by decide)
      obtain ⟨d, u, hu, hu'⟩ := i2 hl' h
      exact ⟨d, u, hu, by rw [List.append_assoc]; exact .move hm hv hu'⟩
    | unclosed hu h1 h2 =>
      rw [h1, ends_nil]
      constructor
      · intro h
        by_cases hs : st = []
        · subst hs
          cases p <;> first | exact ⟨rfl, [], t, rfl, .itemsNil, .inr hu⟩ | (obtain ⟨_, hv⟩ := hv; cases hv)
        · rw [if_neg hs] at h; cases h
      · intro _ _
        refine ⟨h2, ?_⟩
        obtain ⟨b, c, hb, hc1, hc2, rfl⟩ := hu
        have hb' : Body (b ++ [c, ' ']) := hb.append (.raw c hc1 hc2 (.raw ' ' (by decide) (by decide) .nil))
        have hm : Move p st ('"' :: (b ++ [c, ' '] ++ ['"'])) (keyed p) st := .str ⟨_, hb', rfl⟩
        obtain ⟨hv', hh'⟩ := hm.valid hv hh
        refine ⟨'"' :: closing' (keyed p) st, ?_, ?_⟩
        · intro c hc
          rcases List.mem_cons.1 hc with rfl | hc
          · decide
          · exact closers_closing c hc
        · have := Finish.move hm hv (finish_closers hv')
          simpa using this
    | stuck h => rw [h]; exact ⟨nofun, fun _ => nofun⟩
    | full h h1 => exact ⟨fun h' => absurd h' h, fun hl => absurd hl h1⟩

/-! ## The grammar is accepted -/

/-- Digits behind a number belong to it. -/
theorem ends_number (ha : At p st) {n r : Text} (hn : Number n) (h : ends checks false (past p) st r = .ok ()) :
    ends checks false p st (n ++ r) = .ok () := by
  obtain ⟨c, x, rfl, hc, hx⟩ := hn
  have hall : (c :: x).all isNumberChar = true := by
    rw [List.all_cons, Bool.and_eq_true, List.all_eq_true]
    refine ⟨?_, fun d hd => numberChar_iff.2 (hx d hd)⟩
    rcases hc with rfl | h
    · rfl
    · exact isDigit_numberChar h
  have e : r = r.takeWhile isNumberChar ++ r.dropWhile isNumberChar := (List.takeWhile_append_dropWhile).symm
  have hhead : ∀ d, (r.dropWhile isNumberChar).head? = some d → isNumberChar d = false := by
    intro d hd
    have := List.head?_dropWhile_not isNumberChar r
    rw [hd] at this
    simpa using this
  have key : ends checks false p st (c :: x ++ r) = ends checks false (past p) st (r.dropWhile isNumberChar) := by
    conv => lhs; rw [e, ← List.append_assoc]
    rw [ends, read_number checks (c :: x ++ r.takeWhile isNumberChar) _ ⟨c, _, rfl, hc⟩
      (by rw [List.all_append, hall, List.all_takeWhile]; rfl) hhead _ _ ha]
    rfl
  rw [key]
  cases hr : r.takeWhile isNumberChar with
  | nil =>
    rw [hr, List.nil_append] at e
    rwa [← e]
  | cons d y =>
    have hv : At (past p) st := by cases p <;> first | exact ha | exact ha.elim
    have hd : d = '-' ∨ isDigit d = true := by
      rw [e, hr, List.cons_append, ends, readFrom_scan] at h
      have hd : isNumberChar d = true := List.all_eq_true.1 (List.all_takeWhile (p := isNumberChar) (l := r)) d (by rw [hr]; simp)
      rcases numberChar_iff.1 hd with h' | h'
      · exact .inr h'
      · simp only [List.mem_cons, List.not_mem_nil, or_false] at h'
        rcases h' with rfl | rfl | rfl | rfl
        · exact .inl rfl
        · cases h
        · cases h
        · cases h
    rw [e] at h
    rw [ends, read_number checks (r.takeWhile isNumberChar) _ ⟨d, y, hr, hd⟩ List.all_takeWhile hhead _ _ hv, past_past] at h
    exact h

theorem ends_space {c : Char} {r : Text} (hc : isWs c = true) : ends checks false p st (c :: r) = ends checks false p st r := by
  have := read_ws checks [c] r (by simp [Ws, hc]) (enc st) p
  exact congrArg Act.res this

theorem ends_spaces {w r : Text} (hw : Ws w) : ends checks false p st (w ++ r) = ends checks false p st r :=
  congrArg Act.res (read_ws checks w r hw (enc st) p)

theorem ends_string {a r : Text} (h : Str a) : ends checks false p st (a ++ r) = ends checks false (keyed p) st r := by
  obtain ⟨b, hb, rfl⟩ := h
  rw [List.cons_append, List.append_assoc, ends_begin, ends_body checks hb (by simp)]
  exact ends_quote checks

theorem keyed_past (h : At p st) : keyed p = past p := by cases p <;> first | rfl | exact h.elim

/-- Which part can be where, and where it leads. -/
def Leads : Part → Position → Position → List Kind → Prop
  | .item, p, p', st => At p st ∧ p' = past p
  | .items, p, p', st => At p st ∧ past p = p ∧ p' = p
  | .elems, p, p', st => p = .seqElem ∧ p' = .seqElem ∧ Valid p st
  | .members, p, p', st => p = .mapKey ∧ p' = .mapValue ∧ Valid p st

theorem ends_loose {k : Part} (h : Loose Room k st t) : ∀ (p p' : Position) (r : Text), Leads k p p' st →
    ends checks false p' st r = .ok () → ends checks false p st (t ++ r) = .ok () := by
  induction h with
  | str hs => rintro p p' r ⟨ha, rfl⟩ h; rwa [ends_string checks hs, keyed_past ha]
  | number hn => rintro p p' r ⟨ha, rfl⟩ h; exact ends_number checks ha hn h
  | @word st t hw =>
    rintro p p' r ⟨ha, rfl⟩ h
    simp only [List.mem_cons, List.not_mem_nil, or_false] at hw
    rw [ends, readFrom_scan]
    rcases hw with rfl | rfl | rfl
    · exact (congrArg Act.res (read_word checks (t! "true") (.bool true) r (enc st) p ha)).trans h
    · exact (congrArg Act.res (read_word checks (t! "false") (.bool false) r (enc st) p ha)).trans h
    · exact (congrArg Act.res (read_word checks (t! "null") .null r (enc st) p ha)).trans h
  | @seqEmpty st w hr hw =>
    rintro p p' r ⟨ha, rfl⟩ h
    rw [List.cons_append, ends, read_seq_begin checks _ st p ha hr, pre_res]
    show ends checks false _ _ _ = _
    rw [List.append_assoc, ends_spaces checks hw, List.singleton_append, ends,
      read_seq_end checks r st hr [] .seqEmpty (by rintro ⟨_, _, _, _⟩ rfl; rfl), ha.innermost]
    exact h
  | @mapEmpty st w hr hw =>
    rintro p p' r ⟨ha, rfl⟩ h
    rw [List.cons_append, ends, read_map_begin checks _ st p ha hr, pre_res]
    show ends checks false _ _ _ = _
    rw [List.append_assoc, ends_spaces checks hw, List.singleton_append, ends,
      read_map_end checks r st hr [] .mapEmpty (by rintro ⟨_, _, _, _⟩ rfl; rfl), ha.innermost]
    exact h
  | @seq st w a b hr hw _ _ ih1 ih2 =>
    rintro p p' r ⟨ha, rfl⟩ h
    rw [List.cons_append, ends, read_seq_begin checks _ st p ha hr, pre_res]
    show ends checks false _ _ _ = _
    rw [List.append_assoc, ends_spaces checks hw, List.append_assoc]
    refine ih1 _ _ _ ⟨⟨st, rfl⟩, rfl⟩ ?_
    rw [List.append_assoc]
    refine ih2 _ _ _ ⟨rfl, rfl, ⟨st, rfl⟩⟩ ?_
    rw [List.singleton_append, ends, read_seq_end checks r st hr [.seqValueEnd] .seqElem (by rintro ⟨_, _, _, _⟩ rfl; rfl), ha.innermost]
    exact h
  | @map st w a b hr hw hs _ ih =>
    rintro p p' r ⟨ha, rfl⟩ h
    rw [List.cons_append, ends, read_map_begin checks _ st p ha hr, pre_res]
    show ends checks false _ _ _ = _
    rw [List.append_assoc, ends_spaces checks hw, List.append_assoc, ends_string checks hs, List.append_assoc]
    refine ih _ _ _ ⟨rfl, rfl, ⟨st, rfl⟩⟩ ?_
    rw [List.singleton_append, ends, read_map_end checks r st hr [.mapValueEnd] .mapValue (by rintro ⟨_, _, _, _⟩ rfl; rfl), ha.innermost]
    exact h
  | itemsNil => rintro p p' r ⟨_, _, rfl⟩ h; exact h
  | itemsWs hc _ ih => intro p p' r hl h; rw [List.cons_append, ends_space checks hc]; exact ih p p' r hl h
  | items _ _ ih1 ih2 =>
    rintro p p' r ⟨ha, hp, rfl⟩ h
    rw [List.append_assoc]
    refine ih1 _ _ _ ⟨ha, rfl⟩ ?_
    rw [hp]
    exact ih2 _ _ r ⟨ha, hp, rfl⟩ h
  | elemsNil => rintro p p' r ⟨rfl, rfl, _⟩ h; exact h
  | elemsWs hc _ ih => intro p p' r hl h; rw [List.cons_append, ends_space checks hc]; exact ih p p' r hl h
  | elemsComma _ ih =>
    rintro p p' r ⟨rfl, rfl, hv⟩ h
    rw [List.cons_append, ends, read_comma_seq]
    exact ih _ _ r ⟨rfl, rfl, hv⟩ h
  | elems _ _ ih1 ih2 =>
    rintro p p' r ⟨rfl, rfl, hv⟩ h
    rw [List.append_assoc]
    exact ih1 _ _ _ ⟨hv, rfl⟩ (ih2 _ _ r ⟨rfl, rfl, hv⟩ h)
  | membersWs hc _ ih => intro p p' r hl h; rw [List.cons_append, ends_space checks hc]; exact ih p p' r hl h
  | membersKey hs _ ih =>
    rintro p p' r ⟨rfl, rfl, hv⟩ h
    rw [List.append_assoc, ends_string checks hs]
    exact ih _ _ r ⟨rfl, rfl, hv⟩ h
  | membersLast _ ih =>
    rintro p p' r ⟨rfl, rfl, hv⟩ h
    rw [List.cons_append, ends, read_colon]
    exact ih _ _ r ⟨hv, rfl, rfl⟩ h
  | membersMore _ _ ih1 ih2 =>
    rintro p p' r ⟨rfl, rfl, hv⟩ h
    rw [List.cons_append, ends, read_colon, List.append_assoc]
    refine ih1 _ _ _ ⟨hv, rfl, rfl⟩ ?_
    rw [List.cons_append, ends, read_comma_map]
    exact ih2 _ _ r ⟨rfl, rfl, hv⟩ h

theorem ends_doc (h : LooseDoc Room t) : ends checks false .root [] t = .ok () := by
  obtain ⟨a, b, rfl, h1, h2⟩ := h
  refine ends_loose checks h1 .root .root b ⟨rfl, rfl, rfl⟩ ?_
  rcases h2 with rfl | ⟨b, c, hb, hc1, hc2, rfl⟩
  · rw [ends_nil]; rfl
  · rw [ends_begin, ends_body checks hb (by simp), ends_last checks (isPlain_iff.2 ⟨hc1, hc2⟩), ends_nil]; rfl

/-! ## Panics -/

/-- Text that ends behind the start of a string or behind an escape panics, and a text that panics otherwise panics
whatever follows it. -/
theorem ends_panic (n : Nat) : ∀ (t : Text) (p : Position) (st : List Kind), t.length < n → Valid p st → Held st →
    st.length + opens t ≤ 91 → (dangling false t = true → ends checks false p st t = .panic) ∧
    (ends checks false p st t = .panic → dangling false t = true ∨ ∀ u, ends checks false p st (t ++ ' ' :: u) = .panic) := by
  induction n with
  | zero => intro t p st h; omega
  | succ n ih =>
    intro t p st hn hv hh hf
    cases view checks t hv hh (.inr hf) with
    | nil =>
      refine ⟨nofun, fun h => ?_⟩
      rw [ends_nil] at h
      split at h <;> cases h
    | @move x r p' st' hm hx h1 h2 h3 =>
      obtain ⟨hv', hh'⟩ := hm.valid hv hh
      have hlt : r.length < n := by
        have : 0 < x.length := List.length_pos_iff.2 hx
        rw [List.length_append] at hn; omega
      have hl' : st'.length + opens r ≤ 91 := (hm.fits false (.inr hf)).resolve_left (by decide)
      obtain ⟨i1, i2⟩ := ih r p' st' hlt hv' hh' hl'
      rw [h1, h3]
      refine ⟨i1, fun h => (i2 h).imp id fun h u => ?_⟩
      rw [h2, h]
    | unclosed hu h1 h2 =>
      rw [h2]
      refine ⟨nofun, fun h => ?_⟩
      rw [h1, ends_nil] at h
      split at h <;> cases h
    | stuck h h1 => exact ⟨fun _ => h, fun _ => h1⟩
    | full h h1 => exact absurd hf h1

/-! ## The whole text -/

theorem ends_read : (read checks t).res = ends checks false .root [] t := by rw [read_eq]; rfl

theorem read_loose (h : checks = true ∨ opens t ≤ 91) : (read checks t).res = .ok () ↔ LooseDoc Room t := by
  rw [ends_read]
  refine ⟨fun hr => ?_, ends_doc checks⟩
  exact ((finish_ends checks (t.length + 1) t .root [] (Nat.lt_succ_self _) rfl trivial (h.imp id fun h => by simpa using h)).1 hr).2

theorem opens_closers {u : Text} (h : Closers u) : opens (t ++ ' ' :: u) = opens t := by
  have : ∀ u, Closers u → opens u = 0 := by
    intro u hu
    unfold opens
    rw [List.length_eq_zero_iff, List.filter_eq_nil_iff]
    intro c hc
    have := hu c hc
    revert this
    simp only [List.mem_cons, List.not_mem_nil, or_false]
    rintro (rfl | rfl | rfl | rfl) <;> decide
  have h := this u h
  unfold opens at *
  simp only [List.filter_append, List.length_append]
  rw [List.filter_cons_of_neg (by decide), h]
  rfl

theorem read_refused (h : opens t ≤ 91) : (read checks t).res = .err ↔
    ¬ LooseDoc Room t ∧ dangling false t = false ∧ ∃ u, Closers u ∧ LooseDoc Room (t ++ ' ' :: u) := by
  have h0 : ([] : List Kind).length + opens t ≤ 91 := by simpa using h
  constructor
  · intro hr
    refine ⟨fun hl => ?_, ?_⟩
    · rw [(read_loose checks (.inr h)).2 hl] at hr; cases hr
    · rw [ends_read] at hr
      obtain ⟨h1, u, h2, h3⟩ := (finish_ends checks (t.length + 1) t .root [] (Nat.lt_succ_self _) rfl trivial (.inr h0)).2 h0 hr
      exact ⟨h1, u, h2, h3.2⟩
  · rintro ⟨h1, h2, u, h3, h4⟩
    cases hr : (read checks t).res with
    | err => rfl
    | ok => exact absurd ((read_loose checks (.inr h)).1 hr) h1
    | panic =>
      rw [ends_read] at hr
      rcases (ends_panic checks (t.length + 1) t .root [] (Nat.lt_succ_self _) rfl trivial h0).2 hr with h5 | h5
      · rw [h2] at h5; cases h5
      · have := ends_doc checks h4
        rw [h5] at this; cases this

/-- With few brackets there is always room. -/
theorem loose_room {k : Part} {R : List Kind → Prop} (h : Loose R k st t) (hl : st.length + opens t ≤ 91) : Loose Room k st t := by
  have happ (a b : Text) : opens (a ++ b) = opens a + opens b := by simp [opens]
  have ho (b : Text) : opens ('[' :: b) = opens b + 1 ∧ opens ('{' :: b) = opens b + 1 := by simp [opens]
  induction h with
  | str hs => exact .str hs
  | number hn => exact .number hn
  | word hw => exact .word hw
  | seqEmpty _ hw => exact .seqEmpty (room_fits _ (by rw [(ho _).1] at hl; omega)) hw
  | mapEmpty _ hw => exact .mapEmpty (room_fits _ (by rw [(ho _).2] at hl; omega)) hw
  | seq _ hw _ _ ih1 ih2 =>
    rw [(ho _).1, happ, happ, happ] at hl
    exact .seq (room_fits _ (by omega)) hw (ih1 (by simp only [List.length_cons]; omega)) (ih2 (by simp only [List.length_cons]; omega))
  | map _ hw hs _ ih =>
    rw [(ho _).2, happ, happ, happ] at hl
    exact .map (room_fits _ (by omega)) hw hs (ih (by simp only [List.length_cons]; omega))
  | itemsNil => exact .itemsNil
  | itemsWs hc _ ih => exact .itemsWs hc (ih (by have := opens_cons ‹Char› ‹Text›; omega))
  | items _ _ ih1 ih2 => rw [happ] at hl; exact .items (ih1 (by omega)) (ih2 (by omega))
  | elemsNil => exact .elemsNil
  | elemsWs hc _ ih => exact .elemsWs hc (ih (by have := opens_cons ‹Char› ‹Text›; omega))
  | elemsComma _ ih => exact .elemsComma (ih (by have := opens_cons ',' ‹Text›; omega))
  | elems _ _ ih1 ih2 => rw [happ] at hl; exact .elems (ih1 (by omega)) (ih2 (by omega))
  | membersWs hc _ ih => exact .membersWs hc (ih (by have := opens_cons ‹Char› ‹Text›; omega))
  | membersKey hs _ ih => rw [happ] at hl; exact .membersKey hs (ih (by omega))
  | membersLast _ ih => exact .membersLast (ih (by have := opens_cons ':' ‹Text›; omega))
  | @membersMore st b c _ _ ih1 ih2 =>
    have h1 := opens_cons ':' (b ++ ',' :: c)
    have h2 := opens_cons ',' c
    rw [happ] at h1
    exact .membersMore (ih1 (by omega)) (ih2 (by omega))

/-- With less room less is accepted. -/
theorem loose_any {k : Part} {R : List Kind → Prop} (h : Loose R k st t) : Loose (fun _ => True) k st t := by
  induction h with
  | str hs => exact .str hs
  | number hn => exact .number hn
  | word hw => exact .word hw
  | seqEmpty _ hw => exact .seqEmpty trivial hw
  | mapEmpty _ hw => exact .mapEmpty trivial hw
  | seq _ hw _ _ ih1 ih2 => exact .seq trivial hw ih1 ih2
  | map _ hw hs _ ih => exact .map trivial hw hs ih
  | itemsNil => exact .itemsNil
  | itemsWs hc _ ih => exact .itemsWs hc ih
  | items _ _ ih1 ih2 => exact .items ih1 ih2
  | elemsNil => exact .elemsNil
  | elemsWs hc _ ih => exact .elemsWs hc ih
  | elemsComma _ ih => exact .elemsComma ih
  | elems _ _ ih1 ih2 => exact .elems ih1 ih2
  | membersWs hc _ ih => exact .membersWs hc ih
  | membersKey hs _ ih => exact .membersKey hs ih
  | membersLast _ ih => exact .membersLast ih
  | membersMore _ _ ih1 ih2 => exact .membersMore ih1 ih2

theorem looseDoc_room (h : opens t ≤ 91) : LooseDoc (fun _ => True) t ↔ LooseDoc Room t := by
  constructor
  · rintro ⟨a, b, rfl, h1, h2⟩
    refine ⟨a, b, rfl, loose_room h1 ?_, h2⟩
    simp only [opens, List.filter_append, List.length_append, List.length_nil] at h ⊢
    omega
  · rintro ⟨a, b, rfl, h1, h2⟩
    exact ⟨a, b, rfl, loose_any h1, h2⟩

end

end Sval.Reader
