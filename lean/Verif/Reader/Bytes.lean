import Verif.Reader.Lemmas
import Verif.Json.Escape

set_option autoImplicit false

/-!
# The JSON reader over bytes

`experiments/src/json/from_slice.rs` reads bytes and keeps a position. This is that code with indexing, slicing and
`core::str::from_utf8` as they stand, each of which can panic or fail; `Verif/Reader/Model.lean` keeps the characters
that are left instead. `sim_read` says that both make the same calls and end alike on every text.

The parts that do not look at the source (`map_begin`, `value_begin`, ..) are those of `Verif/Reader/Model.lean`.
-/

namespace Sval.Reader.Bytes

/-- `b'c'` -/
def is (b : UInt8) (c : Char) : Bool := b.toNat == c.toNat

/-- `JsonSliceReader`, `experiments/src/json/from_slice.rs:26-32`. `in_str`, `stack` and `position` are those of `ctl`,
whose `rest` is not used. -/
structure St where
  src : Bytes
  head : Nat
  ctl : Reader.St

/-- `JsonSliceReader::new`, `experiments/src/json/from_slice.rs:35-43` -/
def St.new (src : Bytes) : St := { src := src, head := 0, ctl := .new [] }

/-- `core::str::from_utf8(..).map_err(|_| sval::Error::new())` -/
def fromUtf8 (b : Bytes) : Act Text :=
  match b.toByteArray.utf8Decode? with
  | some cs => .pure cs.toList
  | none => .fail

/-- `&src[a..b]` -/
def slice (src : Bytes) (a b : Nat) : Act Bytes :=
  if a ≤ b ∧ b ≤ src.length then .pure ((src.drop a).take (b - a)) else .panic

/-- `src[i]` -/
def get (src : Bytes) (i : Nat) : Act UInt8 :=
  match src[i]? with
  | some b => .pure b
  | none => .panic

/-- `while head < src.len() { match src[head] { p => head += 1, _ => break } }` -/
def skip (p : UInt8 → Bool) (src : Bytes) (head : Nat) : Nat :=
  if h : head < src.length then
    if p src[head] then skip p src (head + 1) else head
  else head
termination_by src.length - head

/-- `b'0'..=b'9'` -/
def isDigit (b : UInt8) : Bool := decide (48 ≤ b.toNat) && decide (b.toNat ≤ 57)

/-- `experiments/src/json/from_slice.rs:436` -/
def isNumberByte (b : UInt8) : Bool := isDigit b || is b '-' || is b '+' || is b '.' || is b 'e'

/-- `number`, `experiments/src/json/from_slice.rs:430-446` -/
def numberOf (src : Bytes) (head : Nat) : Act (Text × Nat) := do
  let stop := skip isNumberByte src head
  let s ← fromUtf8 (← slice src head stop)
  return (s, stop)

/-- `str_fragment`, `experiments/src/json/from_slice.rs:448-481` -/
def strFragment (src : Bytes) (head : Nat) : Act (Text × Bool × Nat) := do
  let b ← get src head
  if is b '\\' then
    let e ← get src (head + 1)
    if is e 'n' then return (['\n'], true, head + 2)
    else if is e 'r' then return (['\r'], true, head + 2)
    else if is e '"' then return (['"'], true, head + 2)
    else if is e '\\' then return (['\\'], true, head + 2)
    else .panic
  else
    let stop := skip (fun b => !is b '\\' && !is b '"') src head
    let more := match src[stop]? with | some b => is b '\\' | none => false
    let s ← fromUtf8 (← slice src head stop)
    return (s, more, if more then stop else stop + 1)

/-- A method that does not look at the source. -/
def onCtl (f : Reader.St → Act Reader.St) (s : St) : Act St := do return { s with ctl := ← f s.ctl }

/-- `maybe_done`, `experiments/src/json/from_slice.rs:165-173` -/
def maybeDone (s : St) : Act (Bool × St) :=
  if s.head < s.src.length then return (true, s)
  else if s.ctl.stack.finish then return (false, s)
  else .fail

/-- A string that was begun, `experiments/src/json/from_slice.rs:182-199` -/
def resumeStr (s : St) : Act (Bool × St) := do
  let (f, more, head) ← strFragment s.src s.head
  .call (.textFragment f)
  if !more then
    .call .textEnd
    maybeDone { s with head := head, ctl.inStr := false }
  else return (true, { s with head := head })

/-- `b'"'`, `experiments/src/json/from_slice.rs:204-231` -/
def beginStr (s : St) : Act (Bool × St) := do
  let s ← onCtl Reader.strBegin { s with head := s.head + 1 }
  let (f, more, head) ← strFragment s.src s.head
  let s := { s with head := head }
  .call (.textBegin none)
  .call (.textFragment f)
  if !more then
    .call .textEnd
    maybeDone s
  else return (true, { s with ctl.inStr := true })

/-- `if let Some(b"..") = self.src.get(self.head..self.head + n)`, `experiments/src/json/from_slice.rs:281-321` -/
def word (w : Text) (t : Token) (s : St) : Act (Bool × St) :=
  if s.head + w.length ≤ s.src.length ∧ (s.src.drop s.head).take w.length = utf8 w then do
    let s ← onCtl Reader.valueBegin { s with head := s.head + w.length }
    .call t
    maybeDone s
  else .panic

/-- `experiments/src/json/from_slice.rs:327-343` -/
def number (s : St) : Act (Bool × St) := do
  let (n, head) ← numberOf s.src s.head
  let s ← onCtl Reader.valueBegin { s with head := head }
  .call (.taggedBegin { tag := some tags.JSON_NUMBER })
  .call (.taggedBegin { tag := some tags.NUMBER })
  .call (.textBegin (some (utf8Len n)))
  .call (.textFragment n)
  .call .textEnd
  .call (.taggedEnd { tag := some tags.NUMBER })
  .call (.taggedEnd { tag := some tags.JSON_NUMBER })
  maybeDone s

section
variable (checks : Bool)

/-- The loop of `stream_resume`, `experiments/src/json/from_slice.rs:201-348`. -/
def scan (s : St) : Act (Bool × St) :=
  if h : s.head < s.src.length then
    let b := s.src[s.head]
    let next := { s with head := s.head + 1 }
    if is b '"' then beginStr s
    else if is b '{' then do return (true, ← onCtl (mapBegin checks) next)
    else if is b '}' then do maybeDone (← onCtl (mapEnd checks) next)
    else if is b '[' then do return (true, ← onCtl (seqBegin checks) next)
    else if is b ']' then do maybeDone (← onCtl (seqEnd checks) next)
    else if is b ':' then do return (true, ← onCtl mapKeyEnd next)
    else if is b ',' then do return (true, ← onCtl valueEnd next)
    else if is b 't' then word (t! "true") (.bool true) s
    else if is b 'f' then word (t! "false") (.bool false) s
    else if is b 'n' then word (t! "null") .null s
    else if is b ' ' || is b '\t' || is b '\r' || is b '\n' then scan next
    else if isDigit b || is b '-' then number s
    else .panic
  else maybeDone s
termination_by s.src.length - s.head

/-- `stream_resume`, `experiments/src/json/from_slice.rs:175-349` -/
def resume (s : St) : Act (Bool × St) := if s.ctl.inStr then resumeStr s else scan checks s

/-- `while reader.stream_resume(&mut *stream)? {}`, `experiments/src/json/from_slice.rs:20`, for at most this many
rounds; nothing if that is not enough. -/
def loop : Nat → St → Option (Act Unit)
  | 0, _ => none
  | n + 1, s =>
    let x := resume checks s
    match x.res with
    | .ok (true, s') => (loop n s').map fun y => x.bind fun _ => y
    | .ok (false, _) => some (x.bind fun _ => .pure ())
    | .err => some ⟨x.calls, .err⟩
    | .panic => some ⟨x.calls, .panic⟩

/-- `<JsonSlice as Value>::stream`, `experiments/src/json/from_slice.rs:16-24`, if it ends within this many rounds. -/
def read (n : Nat) (src : Bytes) : Option (Act Unit) := loop checks n (St.new src)

end

/-! ## The two readers do the same -/

/-- The same calls, and the same end with results that are alike. -/
def Sim {α β : Type} (R : α → β → Prop) (x : Act α) (y : Act β) : Prop :=
  x.calls = y.calls ∧
  match x.res, y.res with
  | .ok a, .ok b => R a b
  | .err, .err => True
  | .panic, .panic => True
  | _, _ => False

theorem Sim.bind {α β γ δ : Type} {R : α → β → Prop} {Q : γ → δ → Prop} {x : Act α} {y : Act β} {f : α → Act γ} {g : β → Act δ}
    (h : Sim R x y) (hf : ∀ a b, R a b → Sim Q (f a) (g b)) : Sim Q (x.bind f) (y.bind g) := by
  obtain ⟨xc, xr⟩ := x
  obtain ⟨yc, yr⟩ := y
  obtain ⟨h1, h2⟩ := h
  dsimp only at h1 h2
  subst h1
  cases xr <;> cases yr <;> try exact h2.elim
  · obtain ⟨h3, h4⟩ := hf _ _ h2
    exact ⟨by simp [Act.bind, h3], by simpa [Act.bind] using h4⟩
  · exact ⟨rfl, trivial⟩
  · exact ⟨rfl, trivial⟩

theorem Sim.pure {α β : Type} {R : α → β → Prop} {a : α} {b : β} (h : R a b) : Sim R (Act.pure a) (Act.pure b) := ⟨rfl, h⟩

theorem Sim.call (t : Token) : Sim Eq (Act.call t) (Act.call t) := ⟨rfl, rfl⟩

theorem Sim.panic {α β : Type} {R : α → β → Prop} : Sim R (Act.panic : Act α) (Act.panic : Act β) := ⟨rfl, trivial⟩
theorem Sim.fail {α β : Type} {R : α → β → Prop} : Sim R (Act.fail : Act α) (Act.fail : Act β) := ⟨rfl, trivial⟩

theorem Sim.refl {α : Type} (x : Act α) : Sim Eq x x := by
  obtain ⟨c, r⟩ := x
  cases r <;> exact ⟨rfl, by simp⟩

/-- A state of the reader over bytes and one of the reader over characters. -/
def Rel (b : St) (s : Reader.St) : Prop := b.src.drop b.head = utf8 s.rest ∧ s = { b.ctl with rest := s.rest }

/-- A method that does not look at the source leaves what is left of it alone. -/
def Frame (f : Reader.St → Act Reader.St) : Prop :=
  ∀ c r, Sim (fun a b => b = { a with rest := r }) (f c) (f { c with rest := r })

theorem Frame.onCtl {f : Reader.St → Act Reader.St} (hf : Frame f) {b : St} {s : Reader.St} (h : Rel b s) :
    Sim Rel (onCtl f b) (f s) := by
  obtain ⟨h1, h2⟩ := h
  have h3 := hf b.ctl s.rest
  rw [← h2] at h3
  obtain ⟨h4, h5⟩ := h3
  unfold Bytes.onCtl
  show Sim Rel ((f b.ctl).bind fun c => Act.pure { b with ctl := c }) (f s)
  cases hx : f b.ctl with
  | mk xc xr =>
    cases hy : f s with
    | mk yc yr =>
      rw [hx, hy] at h4 h5
      dsimp only at h4 h5
      subst h4
      cases xr <;> cases yr <;> try exact h5.elim
      · refine ⟨by simp [Act.bind, Act.pure], ?_⟩
        subst h5
        exact ⟨h1, rfl⟩
      · exact ⟨rfl, trivial⟩
      · exact ⟨rfl, trivial⟩

theorem sim_ofRes (r : Res Unit Stack) : Sim Eq (Act.ofRes r) (Act.ofRes r) := Sim.refl _

theorem frame_strBegin : Frame strBegin := by
  intro ⟨_, _, _, p⟩ r
  cases p <;> first | exact ⟨rfl, rfl⟩ | exact ⟨rfl, trivial⟩

theorem frame_valueBegin : Frame valueBegin := by
  intro ⟨_, _, _, p⟩ r
  cases p <;> first | exact ⟨rfl, rfl⟩ | exact ⟨rfl, trivial⟩

theorem frame_mapKeyEnd : Frame mapKeyEnd := by
  intro ⟨_, _, _, p⟩ r
  cases p <;> first | exact ⟨rfl, rfl⟩ | exact ⟨rfl, trivial⟩

theorem frame_valueEnd : Frame valueEnd := by
  intro ⟨_, _, _, p⟩ r
  cases p <;> first | exact ⟨rfl, rfl⟩ | exact ⟨rfl, trivial⟩

theorem frame_mapBegin (checks : Bool) : Frame (mapBegin checks) := fun _ _ =>
  (Sim.refl _).bind fun _ _ _ => (Sim.refl _).bind fun _ _ h => (Sim.call _).bind fun _ _ _ => Sim.pure (by subst h; rfl)

theorem frame_seqBegin (checks : Bool) : Frame (seqBegin checks) := fun _ _ =>
  (Sim.refl _).bind fun _ _ _ => (Sim.refl _).bind fun _ _ h => (Sim.call _).bind fun _ _ _ => Sim.pure (by subst h; rfl)

theorem frame_mapEnd (checks : Bool) : Frame (mapEnd checks) := fun _ _ =>
  (Sim.refl _).bind fun _ _ _ => (Sim.refl _).bind fun _ _ h => (Sim.call _).bind fun _ _ _ => Sim.pure (by subst h; rfl)

theorem frame_seqEnd (checks : Bool) : Frame (seqEnd checks) := fun _ _ =>
  (Sim.refl _).bind fun _ _ _ => (Sim.refl _).bind fun _ _ h => (Sim.call _).bind fun _ _ _ => Sim.pure (by subst h; rfl)

/-! ### Bytes and characters -/

theorem utf8_cons (c : Char) (t : Text) : utf8 (c :: t) = String.utf8EncodeChar c ++ utf8 t := rfl

theorem is_ascii (c d : Char) (hc : c.toNat < 128) : is (UInt8.ofNat c.toNat) d = (c == d) := by
  have ht : (UInt8.ofNat c.toNat).toNat = c.toNat := by rw [UInt8.toNat_ofNat']; omega
  rw [is, ht, Bool.eq_iff_iff, beq_iff_eq, beq_iff_eq]
  exact ⟨fun h => Char.ext (UInt32.toNat_inj.1 h), fun h => h ▸ rfl⟩

theorem is_high (b : UInt8) (d : Char) (hb : 128 ≤ b.toNat) (hd : d.toNat < 128) : is b d = false := by
  rw [is, beq_eq_false_iff_ne]; omega

theorem isDigit_ascii (c : Char) (hc : c.toNat < 128) : isDigit (UInt8.ofNat c.toNat) = Sval.isDigit c := by
  have ht : (UInt8.ofNat c.toNat).toNat = c.toNat := by rw [UInt8.toNat_ofNat']; omega
  rw [isDigit, ht, Sval.isDigit]

theorem isDigit_high (b : UInt8) (hb : 128 ≤ b.toNat) : isDigit b = false := by
  rw [isDigit, Bool.and_eq_false_iff]; right; simp; omega

/-- A test on bytes is one on characters. -/
structure Agree (p : UInt8 → Bool) (q : Char → Bool) (high : Bool) : Prop where
  ascii : ∀ c : Char, c.toNat < 128 → p (UInt8.ofNat c.toNat) = q c
  byte : ∀ b : UInt8, 128 ≤ b.toNat → p b = high
  char : ∀ c : Char, ¬ c.toNat < 128 → q c = high

theorem takeWhile_high {p : UInt8 → Bool} (bs r : Bytes) (h : ∀ b ∈ bs, p b = true) :
    (bs ++ r).takeWhile p = bs ++ r.takeWhile p ∧ (bs ++ r).dropWhile p = r.dropWhile p := by
  induction bs with
  | nil => exact ⟨rfl, rfl⟩
  | cons b bs ih =>
    have ih := ih fun b hb => h b (by simp [hb])
    have hb := h b (by simp)
    rw [List.cons_append, List.takeWhile_cons, List.dropWhile_cons, if_pos hb, if_pos hb, ih.1, ih.2]
    exact ⟨rfl, rfl⟩

theorem Agree.while {p : UInt8 → Bool} {q : Char → Bool} {high : Bool} (h : Agree p q high) (t : Text) :
    (utf8 t).takeWhile p = utf8 (t.takeWhile q) ∧ (utf8 t).dropWhile p = utf8 (t.dropWhile q) := by
  induction t with
  | nil => exact ⟨rfl, rfl⟩
  | cons c t ih =>
    rw [utf8_cons, List.takeWhile_cons, List.dropWhile_cons]
    by_cases hc : c.toNat < 128
    · rw [Json.utf8_ascii c hc, List.singleton_append, List.takeWhile_cons, List.dropWhile_cons, h.ascii c hc]
      by_cases hq : q c = true
      · rw [if_pos hq, if_pos hq, if_pos hq, if_pos hq, ih.1, ih.2, utf8_cons, Json.utf8_ascii c hc]
        exact ⟨rfl, rfl⟩
      · rw [if_neg hq, if_neg hq, if_neg hq, if_neg hq, utf8_cons, Json.utf8_ascii c hc]
        exact ⟨rfl, rfl⟩
    · have hb := Json.utf8_high c hc
      rw [h.char c hc]
      cases high with
      | true =>
        have := takeWhile_high (p := p) (String.utf8EncodeChar c) (utf8 t) fun b hm => h.byte b (hb b hm)
        rw [this.1, this.2, ih.1, ih.2]
        exact ⟨rfl, rfl⟩
      | false =>
        have hne := String.utf8EncodeChar_ne_nil (c := c)
        cases he : String.utf8EncodeChar c with
        | nil => exact absurd he hne
        | cons b bs =>
          have := h.byte b (hb b (by rw [he]; simp))
          rw [List.cons_append, List.takeWhile_cons, List.dropWhile_cons, this]
          refine ⟨rfl, ?_⟩
          rw [if_neg (by simp), if_neg (by simp), utf8_cons, he]; rfl

theorem skip_eq (p : UInt8 → Bool) (src : Bytes) (head : Nat) :
    skip p src head = head + ((src.drop head).takeWhile p).length := by
  induction hn : src.length - head generalizing head with
  | zero =>
    rw [skip, dif_neg (by omega), List.drop_eq_nil_of_le (by omega)]; rfl
  | succ n ih =>
    rw [skip, dif_pos (by omega : head < src.length), List.drop_eq_getElem_cons (by omega : head < src.length), List.takeWhile_cons]
    split
    · rw [ih (head + 1) (by omega), List.length_cons]; omega
    · rfl

theorem take_takeWhile {α : Type} (p : α → Bool) (l : List α) : l.take (l.takeWhile p).length = l.takeWhile p := by
  conv => lhs; arg 2; rw [← List.takeWhile_append_dropWhile (p := p) (l := l)]
  rw [List.take_left]

theorem drop_takeWhile {α : Type} (p : α → Bool) (l : List α) : l.drop (l.takeWhile p).length = l.dropWhile p := by
  conv => lhs; arg 2; rw [← List.takeWhile_append_dropWhile (p := p) (l := l)]
  rw [List.drop_left]

theorem fromUtf8_utf8 (t : Text) : fromUtf8 (utf8 t) = .pure t := by
  have : (utf8 t).toByteArray = t.utf8Encode := rfl
  rw [fromUtf8, this, List.utf8Decode?_utf8Encode]

/-- What a scan finds. -/
theorem Agree.slice {p : UInt8 → Bool} {q : Char → Bool} {high : Bool} (h : Agree p q high) (src : Bytes) (head : Nat) (t : Text)
    (ht : src.drop head = utf8 t) (hl : head ≤ src.length) :
    (Bytes.slice src head (skip p src head)).bind fromUtf8 = Act.pure (t.takeWhile q) ∧
      src.drop (skip p src head) = utf8 (t.dropWhile q) := by
  have hw := h.while t
  rw [skip_eq, ht]
  constructor
  · have hlen : ((utf8 t).takeWhile p).length ≤ src.length - head := by
      have := congrArg List.length ht
      rw [List.length_drop] at this
      rw [this]
      exact (List.takeWhile_sublist p).length_le
    rw [Bytes.slice, if_pos ⟨by omega, by omega⟩, ht, show head + ((utf8 t).takeWhile p).length - head = ((utf8 t).takeWhile p).length by omega,
      take_takeWhile, hw.1]
    show Act.bind ⟨[], .ok (utf8 (t.takeWhile q))⟩ fromUtf8 = _
    simp only [Act.bind, fromUtf8_utf8, Act.pure, List.nil_append]
  · rw [← List.drop_drop, ht, drop_takeWhile, hw.2]

theorem agree_number : Agree isNumberByte isNumberChar false where
  ascii c hc := by
    simp only [isNumberByte, isNumberChar, isDigit_ascii c hc, is_ascii _ _ hc]
  byte b hb := by
    simp [isNumberByte, isDigit_high b hb, is_high b _ hb (show ('-' : Char).toNat < 128 by decide),
      is_high b _ hb (show ('+' : Char).toNat < 128 by decide), is_high b _ hb (show ('.' : Char).toNat < 128 by decide),
      is_high b _ hb (show ('e' : Char).toNat < 128 by decide)]
  char c hc := by
    have hne (d : Char) (hd : d.toNat < 128) : (c == d) = false := by
      rw [beq_eq_false_iff_ne]; rintro rfl; exact hc hd
    have hd : Sval.isDigit c = false := by rw [Sval.isDigit, Bool.and_eq_false_iff]; right; simp; omega
    simp [isNumberChar, hd, hne '-' (by decide), hne '+' (by decide), hne '.' (by decide), hne 'e' (by decide)]

theorem agree_plain : Agree (fun b => !is b '\\' && !is b '"') isPlain true where
  ascii c hc := by simp only [isPlain, is_ascii _ _ hc, bne]
  byte b hb := by
    simp [is_high b _ hb (show ('\\' : Char).toNat < 128 by decide), is_high b _ hb (show ('"' : Char).toNat < 128 by decide)]
  char c hc := by
    have hne (d : Char) (hd : d.toNat < 128) : (c != d) = true := by
      rw [bne_iff_ne]; rintro rfl; exact hc hd
    simp [isPlain, hne '\\' (by decide), hne '"' (by decide)]

theorem first (src : Bytes) (head : Nat) (c : Char) (r : Text) (h : src.drop head = utf8 (c :: r)) (hl : head < src.length) :
    (∀ d : Char, d.toNat < 128 → is src[head] d = (c == d)) ∧ isDigit src[head] = Sval.isDigit c ∧
      (c.toNat < 128 → src.drop (head + 1) = utf8 r) := by
  rw [List.drop_eq_getElem_cons hl, utf8_cons] at h
  by_cases hc : c.toNat < 128
  · rw [Json.utf8_ascii c hc, List.singleton_append, List.cons.injEq] at h
    rw [h.1]
    exact ⟨fun d _ => is_ascii c d hc, isDigit_ascii c hc, fun _ => h.2⟩
  · have hb := Json.utf8_high c hc
    have hm : src[head] ∈ String.utf8EncodeChar c := by
      cases he : String.utf8EncodeChar c with
      | nil => exact absurd he (String.utf8EncodeChar_ne_nil (c := c))
      | cons b bs =>
        rw [he, List.cons_append, List.cons.injEq] at h
        rw [h.1]; simp
    refine ⟨fun d hd => ?_, ?_, fun h => absurd h hc⟩
    · rw [is_high _ d (hb _ hm) hd, eq_comm, beq_eq_false_iff_ne]; rintro rfl; exact hc hd
    · rw [isDigit_high _ (hb _ hm), eq_comm, Sval.isDigit, Bool.and_eq_false_iff]; right; simp; omega

theorem inside (src : Bytes) (head : Nat) (t : Text) (h : src.drop head = utf8 t) : head < src.length ↔ t ≠ [] := by
  have := Json.utf8_eq_nil t
  rw [← h, List.drop_eq_nil_iff] at this
  rw [Ne, ← this]; omega

theorem get_eq (src : Bytes) (head : Nat) (h : head < src.length) : get src head = .pure src[head] := by
  rw [get, List.getElem?_eq_getElem h]

theorem get_none (src : Bytes) (head : Nat) (h : ¬ head < src.length) : get src head = .panic := by
  rw [get, List.getElem?_eq_none (by omega)]

/-! ### The methods -/

theorem sim_strFragment (src : Bytes) (head : Nat) (t : Text) (h : src.drop head = utf8 t) :
    Sim (fun a b => a.1 = b.1 ∧ a.2.1 = b.2.1 ∧ src.drop a.2.2 = utf8 b.2.2) (strFragment src head) (Reader.strFragment t) := by
  cases t with
  | nil =>
    have hl : ¬ head < src.length := fun hl => (inside src head [] h).1 hl rfl
    show Sim _ ((get src head).bind _) Act.panic
    rw [get_none _ _ hl]; exact Sim.panic
  | cons c r =>
    have hl : head < src.length := (inside src head _ h).2 (by simp)
    obtain ⟨h1, -, h2⟩ := first src head c r h hl
    show Sim _ ((get src head).bind _) _
    rw [get_eq _ _ hl]
    show Sim _ (Act.bind ⟨[], .ok _⟩ _) _
    simp only [Act.bind, List.nil_append]
    rw [h1 '\\' (by decide)]
    by_cases hc : c = '\\'
    · subst hc
      have h2 := h2 (by decide)
      rw [if_pos (by rfl)]
      cases r with
      | nil =>
        have hl : ¬ head + 1 < src.length := fun hl => (inside src _ [] h2).1 hl rfl
        show Sim _ ((get src (head + 1)).bind _) Act.panic
        rw [get_none _ _ hl]; exact Sim.panic
      | cons d r =>
        have hl : head + 1 < src.length := (inside src _ _ h2).2 (by simp)
        obtain ⟨h3, -, h4⟩ := first src _ d r h2 hl
        show Sim _ ((get src (head + 1)).bind _) _
        rw [get_eq _ _ hl]
        show Sim _ (Act.bind ⟨[], .ok _⟩ _) _
        simp only [Act.bind, List.nil_append, h3 'n' (by decide), h3 'r' (by decide), h3 '"' (by decide), h3 '\\' (by decide), beq_iff_eq]
        by_cases e1 : d = 'n'
        · subst e1; exact ⟨rfl, rfl, rfl, h4 (by decide)⟩
        rw [if_neg e1]
        by_cases e2 : d = 'r'
        · subst e2; exact ⟨rfl, rfl, rfl, h4 (by decide)⟩
        rw [if_neg e2]
        by_cases e3 : d = '"'
        · subst e3; exact ⟨rfl, rfl, rfl, h4 (by decide)⟩
        rw [if_neg e3]
        by_cases e4 : d = '\\'
        · subst e4; exact ⟨rfl, rfl, rfl, h4 (by decide)⟩
        rw [if_neg e4]
        have : Reader.strFragment ('\\' :: d :: r) = .panic := by
          rw [Reader.strFragment]
          all_goals (intro r' h; simp_all)
        rw [this]; exact Sim.panic
    · rw [if_neg (by simpa using hc)]
      obtain ⟨h5, h6⟩ := agree_plain.slice src head (c :: r) h (by omega)
      have hy : Reader.strFragment (c :: r) = match (c :: r).dropWhile isPlain with
          | '\\' :: r' => .pure ((c :: r).takeWhile isPlain, true, '\\' :: r')
          | _ :: r' => .pure ((c :: r).takeWhile isPlain, false, r')
          | [] => .pure ((c :: r).takeWhile isPlain, false, []) := by
        rw [Reader.strFragment]
        · rfl
        · simp
        · intro r' h; simp at h; exact hc h.1
      rw [hy]
      show Sim _ ((slice src head (skip _ src head)).bind fun b => (fromUtf8 b).bind fun s => Act.pure _) _
      rw [← Act.bind_assoc, h5]
      show Sim _ (Act.bind ⟨[], .ok _⟩ _) _
      simp only [Act.bind, List.nil_append]
      cases hd : (c :: r).dropWhile isPlain with
      | nil =>
        rw [hd] at h6
        have hl : ¬ skip (fun b => !is b '\\' && !is b '"') src head < src.length := fun hl => (inside src _ [] h6).1 hl rfl
        rw [List.getElem?_eq_none (by omega)]
        refine ⟨rfl, rfl, rfl, ?_⟩
        show src.drop (_ + 1) = _
        rw [List.drop_eq_nil_of_le (by omega)]; rfl
      | cons d r' =>
        rw [hd] at h6
        have hl := (inside src _ _ h6).2 (by simp)
        obtain ⟨h7, -, h8⟩ := first src _ d r' h6 hl
        rw [List.getElem?_eq_getElem hl]
        dsimp only
        simp only [h7 '\\' (by decide)]
        have hp : isPlain d = false := by
          have := List.head?_dropWhile_not isPlain (c :: r)
          rw [hd] at this
          simpa using this
        by_cases e : d = '\\'
        · subst e; exact ⟨rfl, rfl, rfl, h6⟩
        · have e' : d = '"' := by simpa [isPlain, e] using hp
          subst e'
          exact ⟨rfl, rfl, rfl, h8 (by decide)⟩

theorem sim_maybeDone {b : St} {s : Reader.St} (h : Rel b s) :
    Sim (fun a b => a.1 = b.1 ∧ Rel a.2 b.2) (maybeDone b) (Reader.maybeDone s) := by
  have hi := inside b.src b.head s.rest h.1
  have hs : s.stack = b.ctl.stack := by rw [h.2]
  unfold maybeDone Reader.maybeDone
  rw [hs]
  by_cases hr : s.rest = []
  · rw [if_neg (fun h => hi.1 h hr), if_neg (show ¬ (s.rest ≠ []) from fun h => h hr)]
    split
    · exact Sim.pure ⟨rfl, h⟩
    · exact Sim.fail
  · rw [if_pos (hi.2 hr), if_pos hr]
    exact Sim.pure ⟨rfl, h⟩

/-- Results of a step: whether to go on, and the state. -/
abbrev RelB (a : Bool × St) (b : Bool × Reader.St) : Prop := a.1 = b.1 ∧ Rel a.2 b.2

theorem sim_resumeStr {b : St} {s : Reader.St} (h : Rel b s) : Sim RelB (resumeStr b) (Reader.resumeStr s) := by
  refine (sim_strFragment b.src b.head s.rest h.1).bind fun a c hac => ?_
  obtain ⟨f, m, hd⟩ := a
  obtain ⟨f', m', r⟩ := c
  obtain ⟨h1, h2, h3⟩ := hac
  dsimp only at h1 h2 h3
  subst h1; subst h2
  refine (Sim.call _).bind fun _ _ _ => ?_
  cases m with
  | true => exact Sim.pure ⟨rfl, h3, by rw [h.2]⟩
  | false => exact (Sim.call _).bind fun _ _ _ => sim_maybeDone ⟨h3, by rw [h.2]⟩

/-- The state after the byte of an ASCII character. -/
theorem Rel.next {b : St} {s : Reader.St} {c : Char} {r : Text} (h : Rel b s) (hr : s.rest = c :: r) (hc : c.toNat < 128) :
    Rel { b with head := b.head + 1 } { s with rest := r } := by
  have hl : b.head < b.src.length := (inside b.src b.head _ h.1).2 (by simp [hr])
  refine ⟨(first b.src b.head c r (by rw [h.1, hr]) hl).2.2 hc, by rw [h.2]⟩

theorem sim_beginStr {b : St} {s : Reader.St} {r : Text} (h : Rel b s) (hr : s.rest = '"' :: r) :
    Sim RelB (beginStr b) (Reader.beginStr { s with rest := r }) := by
  refine (frame_strBegin.onCtl (h.next hr (by decide))).bind fun b s h => ?_
  refine (sim_strFragment b.src b.head s.rest h.1).bind fun a c hac => ?_
  obtain ⟨f, m, hd⟩ := a
  obtain ⟨f', m', r⟩ := c
  obtain ⟨h1, h2, h3⟩ := hac
  dsimp only at h1 h2 h3
  subst h1; subst h2
  refine (Sim.call _).bind fun _ _ _ => (Sim.call _).bind fun _ _ _ => ?_
  cases m with
  | true => exact Sim.pure ⟨rfl, h3, by rw [h.2]⟩
  | false => exact (Sim.call _).bind fun _ _ _ => sim_maybeDone ⟨h3, by rw [h.2]⟩

theorem sim_number {b : St} {s : Reader.St} (h : Rel b s) (hr : s.rest ≠ []) : Sim RelB (number b) (Reader.number s) := by
  have hl := (inside b.src b.head _ h.1).2 hr
  obtain ⟨h1, h2⟩ := agree_number.slice b.src b.head s.rest h.1 (by omega)
  have hn : numberOf b.src b.head = Act.pure (s.rest.takeWhile isNumberChar, skip isNumberByte b.src b.head) := by
    show (slice _ _ _).bind (fun x => (fromUtf8 x).bind fun s => Act.pure _) = _
    rw [← Act.bind_assoc, h1]; rfl
  unfold number Reader.number
  rw [hn]
  refine Sim.bind (x := Act.pure _) (y := Act.pure ()) (R := fun a _ => a = (s.rest.takeWhile isNumberChar, skip isNumberByte b.src b.head))
    (Sim.pure rfl) (g := fun _ => _) fun a _ ha => ?_
  subst ha
  refine (frame_valueBegin.onCtl (b := { b with head := skip isNumberByte b.src b.head }) (s := { s with rest := _ }) ⟨h2, by rw [h.2]⟩).bind fun b s h => ?_
  exact (Sim.call _).bind fun _ _ _ => (Sim.call _).bind fun _ _ _ => (Sim.call _).bind fun _ _ _ => (Sim.call _).bind fun _ _ _ =>
    (Sim.call _).bind fun _ _ _ => (Sim.call _).bind fun _ _ _ => (Sim.call _).bind fun _ _ _ => sim_maybeDone h

theorem utf8_prefix (w t : Text) (hw : ∀ d ∈ w, d.toNat < 128) :
    ((utf8 t).take w.length = utf8 w ↔ w.isPrefixOf t = true) ∧
      (w.isPrefixOf t = true → (utf8 t).drop w.length = utf8 (t.drop w.length)) := by
  induction w generalizing t with
  | nil => exact ⟨by simp [utf8], fun _ => rfl⟩
  | cons d w ih =>
    have hd := hw d (by simp)
    have hu : utf8 (d :: w) = UInt8.ofNat d.toNat :: utf8 w := by rw [utf8_cons, Json.utf8_ascii d hd]; rfl
    cases t with
    | nil => exact ⟨by rw [hu]; simp [utf8], by simp⟩
    | cons c t =>
      have ih := ih t fun d hd => hw d (by simp [hd])
      by_cases hc : c.toNat < 128
      · have hc' : utf8 (c :: t) = UInt8.ofNat c.toNat :: utf8 t := by rw [utf8_cons, Json.utf8_ascii c hc]; rfl
        rw [hu, hc', List.length_cons, List.take_succ_cons, List.drop_succ_cons, List.drop_succ_cons, List.isPrefixOf, Bool.and_eq_true,
          beq_iff_eq, List.cons.injEq, ih.1]
        have : UInt8.ofNat c.toNat = UInt8.ofNat d.toNat ↔ d = c := by
          constructor
          · intro h
            have h' := is_ascii c d hc
            rw [h, is_ascii d d hd, beq_self_eq_true] at h'
            exact (beq_iff_eq.1 h'.symm).symm
          · rintro rfl; rfl
        rw [this]
        exact ⟨Iff.rfl, fun h => ih.2 h.2⟩
      · have hn : (d == c) = false := by rw [beq_eq_false_iff_ne]; rintro rfl; exact hc hd
        rw [List.isPrefixOf, hn, Bool.false_and]
        refine ⟨⟨fun h => ?_, fun h => by cases h⟩, fun h => by cases h⟩
        exfalso
        rw [hu, utf8_cons] at h
        cases he : String.utf8EncodeChar c with
        | nil => exact String.utf8EncodeChar_ne_nil (c := c) he
        | cons b bs =>
          rw [he, List.cons_append, List.length_cons, List.take_succ_cons, List.cons.injEq] at h
          have := Json.utf8_high c hc b (by rw [he]; simp)
          rw [h.1, UInt8.toNat_ofNat'] at this
          omega

theorem utf8_length (w : Text) (hw : ∀ d ∈ w, d.toNat < 128) : (utf8 w).length = w.length := by
  induction w with
  | nil => rfl
  | cons d w ih => rw [utf8_cons, Json.utf8_ascii d (hw d (by simp)), List.length_append, ih fun d hd => hw d (by simp [hd])]; simp; omega

theorem sim_word {b : St} {s : Reader.St} (w : Text) (t : Token) (hw : ∀ d ∈ w, d.toNat < 128) (hz : w ≠ []) (h : Rel b s) :
    Sim RelB (word w t b) (Reader.word w t s) := by
  obtain ⟨h1, h2⟩ := utf8_prefix w s.rest hw
  have hc : b.head + w.length ≤ b.src.length ∧ (b.src.drop b.head).take w.length = utf8 w ↔ w.isPrefixOf s.rest = true := by
    rw [← h1, h.1]
    refine ⟨fun h => h.2, fun h' => ⟨?_, h'⟩⟩
    have := congrArg List.length h'
    rw [← h.1, utf8_length w hw, List.length_take, List.length_drop] at this
    have := List.length_pos_iff.2 hz
    omega
  unfold word Reader.word
  by_cases hp : w.isPrefixOf s.rest = true
  · rw [if_pos (hc.2 hp), if_pos hp]
    refine (frame_valueBegin.onCtl (b := { b with head := b.head + w.length }) (s := { s with rest := s.rest.drop w.length })
      ⟨?_, by rw [h.2]⟩).bind fun b s h => ?_
    · show b.src.drop (b.head + w.length) = _
      rw [← List.drop_drop, h.1, h2 hp]
    · exact (Sim.call _).bind fun _ _ _ => sim_maybeDone h
  · rw [if_neg (fun h => hp (hc.1 h)), if_neg hp]
    exact Sim.panic

theorem sim_scan (checks : Bool) (b : St) (s : Reader.St) (t : Text) (h : Rel b { s with rest := t }) :
    Sim RelB (scan checks b) (Reader.scan checks s t) := by
  induction hn : b.src.length - b.head generalizing b t with
  | zero =>
    have hl : ¬ b.head < b.src.length := by omega
    have hr : t = [] := by
      cases t with
      | nil => rfl
      | cons c r => exact absurd ((inside _ _ _ h.1).2 (by simp)) hl
    subst hr
    rw [scan, dif_neg hl, Reader.scan]
    exact sim_maybeDone h
  | succ n ih =>
    have hl : b.head < b.src.length := by omega
    obtain ⟨c, r, rfl⟩ : ∃ c r, t = c :: r := by
      cases t with
      | nil => exact absurd rfl ((inside _ _ _ h.1).1 hl)
      | cons c r => exact ⟨c, r, rfl⟩
    obtain ⟨h1, h2, -⟩ := first b.src b.head c r h.1 hl
    have hx {f : Reader.St → Act Reader.St} (hf : Frame f) (hc : c.toNat < 128) :
        Sim RelB ((onCtl f { b with head := b.head + 1 }).bind fun x => Act.pure (true, x)) (goOn (f { s with rest := r })) :=
      (hf.onCtl (h.next rfl hc)).bind fun _ _ h => Sim.pure ⟨rfl, h⟩
    have hd {f : Reader.St → Act Reader.St} (hf : Frame f) (hc : c.toNat < 128) :
        Sim RelB ((onCtl f { b with head := b.head + 1 }).bind maybeDone) ((f { s with rest := r }).bind Reader.maybeDone) :=
      (hf.onCtl (h.next rfl hc)).bind fun _ _ h => sim_maybeDone h
    have hw (hc : c.toNat < 128) : Sim RelB (scan checks { b with head := b.head + 1 }) (Reader.scan checks s r) :=
      ih _ _ (h.next rfl hc) (by show b.src.length - (b.head + 1) = n; omega)
    rw [scan, dif_pos hl]
    simp only [h1 '"' (by decide), h1 '{' (by decide), h1 '}' (by decide), h1 '[' (by decide), h1 ']' (by decide), h1 ':' (by decide),
      h1 ',' (by decide), h1 't' (by decide), h1 'f' (by decide), h1 'n' (by decide), h1 ' ' (by decide), h1 '\t' (by decide),
      h1 '\r' (by decide), h1 '\n' (by decide), h1 '-' (by decide), h2, beq_iff_eq, Bool.or_eq_true]
    by_cases e1 : c = '"'
    · subst e1; rw [if_pos rfl]; exact sim_beginStr (s := { s with rest := '"' :: r }) h rfl
    by_cases e2 : c = '{'
    · subst e2; exact hx (frame_mapBegin checks) (by decide)
    by_cases e3 : c = '}'
    · subst e3; exact hd (frame_mapEnd checks) (by decide)
    by_cases e4 : c = '['
    · subst e4; exact hx (frame_seqBegin checks) (by decide)
    by_cases e5 : c = ']'
    · subst e5; exact hd (frame_seqEnd checks) (by decide)
    by_cases e6 : c = ':'
    · subst e6; exact hx frame_mapKeyEnd (by decide)
    by_cases e7 : c = ','
    · subst e7; exact hx frame_valueEnd (by decide)
    by_cases e8 : c = 't'
    · subst e8; exact sim_word (t! "true") _ (by decide) (by decide) h
    by_cases e9 : c = 'f'
    · subst e9; exact sim_word (t! "false") _ (by decide) (by decide) h
    by_cases e10 : c = 'n'
    · subst e10; exact sim_word (t! "null") _ (by decide) (by decide) h
    rw [if_neg e1, if_neg e2, if_neg e3, if_neg e4, if_neg e5, if_neg e6, if_neg e7, if_neg e8, if_neg e9, if_neg e10]
    by_cases f1 : c = ' '
    · subst f1; rw [if_pos (by simp)]; exact hw (by decide)
    by_cases f2 : c = '\t'
    · subst f2; rw [if_pos (by simp)]; exact hw (by decide)
    by_cases f3 : c = '\r'
    · subst f3; rw [if_pos (by simp)]; exact hw (by decide)
    by_cases f4 : c = '\n'
    · subst f4; rw [if_pos (by simp)]; exact hw (by decide)
    rw [if_neg (by simp [f1, f2, f3, f4])]
    by_cases g : c = '-'
    · subst g; rw [if_pos (by simp)]; exact sim_number h (by simp)
    have hy : Reader.scan checks s (c :: r) = if Sval.isDigit c then Reader.number { s with rest := c :: r } else .panic := by
      rw [Reader.scan] <;> intro h <;> contradiction
    rw [hy]
    by_cases hdg : Sval.isDigit c = true
    · rw [if_pos (.inl hdg), if_pos hdg]; exact sim_number h (by simp)
    · rw [if_neg (by simp [hdg, g]), if_neg hdg]; exact Sim.panic

theorem sim_resume (checks : Bool) {b : St} {s : Reader.St} (h : Rel b s) : Sim RelB (resume checks b) (Reader.resume checks s) := by
  unfold resume Reader.resume
  have : s.inStr = b.ctl.inStr := by rw [h.2]
  rw [this]
  split
  · exact sim_resumeStr h
  · exact sim_scan checks b s s.rest h

theorem sim_loop (checks : Bool) (n : Nat) {b : St} {s : Reader.St} (h : Rel b s) : loop checks n b = Reader.loop checks n s := by
  induction n generalizing b s with
  | zero => rfl
  | succ n ih =>
    have hs := sim_resume checks h
    rw [loop, Reader.loop]
    cases hx : resume checks b with
    | mk xc xr =>
      cases hy : Reader.resume checks s with
      | mk yc yr =>
        rw [hx, hy] at hs
        obtain ⟨h1, h2⟩ := hs
        dsimp only at h1 h2 ⊢
        subst h1
        cases xr <;> cases yr <;> try exact h2.elim
        · rename_i a c
          obtain ⟨m, b'⟩ := a
          obtain ⟨m', s'⟩ := c
          obtain ⟨rfl, h4⟩ := h2
          cases m with
          | true => dsimp only; rw [ih h4]; rfl
          | false => rfl
        · rfl
        · rfl

/-- On the bytes of a text the reader does what the model over characters does. -/
theorem sim_read (checks : Bool) (t : Text) (n : Nat) (h : t.length < n) : read checks n (utf8 t) = some (Reader.read checks t) := by
  have hr : Rel (St.new (utf8 t)) (.new t) := ⟨rfl, rfl⟩
  obtain ⟨x, h1, h2⟩ := loop_ends checks (Reader.St.new t) (t.length + 1) (Nat.lt_succ_self _)
  rw [read, sim_loop checks n hr, Reader.read, h1, h2 n h]; rfl

end Sval.Reader.Bytes
