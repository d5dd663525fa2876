import Verif.Buffer.Display

set_option autoImplicit false

/-!
# C14: values with `Display` in text buffers
-/

namespace Sval

open Buf (Disp DispErr pushDisplay collectDisplay writeDisplay Err)

/-- Specification: what an implementation of `Display` writes to a writer that takes everything, and what it returns. -/
def Buf.Disp.shown : Disp → List Text × Bool
  | .ret ok => ([], ok)
  | .write s k => (s :: (Disp.shown (k true)).1, (Disp.shown (k true)).2)

theorem Buf.writeDisplay_shown (d : Disp) (c : Buf.Cow Char) (e : Option Err) :
    (writeDisplay true d (c, e)).1.1.content = c.content ++ d.shown.1.flatten ∧
      (writeDisplay true d (c, e)).1.2 = e ∧ (writeDisplay true d (c, e)).2 = d.shown.2 ∧
      (writeDisplay true d (c, e)).1.1.asBorrowed = if d.shown.1 = [] then c.asBorrowed else none := by
  induction d generalizing c with
  | ret ok => simp [writeDisplay, Disp.shown]
  | write s k ih =>
    obtain ⟨h1, h2, h3, h4⟩ := ih true (.owned (c.content ++ s))
    have hw : writeDisplay true (.write s k) (c, e) = writeDisplay true (k true) (.owned (c.content ++ s), e) := by
      simp [writeDisplay, Buf.Cow.pushComputed]
    rw [hw, h1, h2, h3, h4]
    simp [Disp.shown, Buf.Cow.content, Buf.Cow.asBorrowed]

/-- C14: pushing a value that implements `Display` appends exactly what it writes to any writer, and fails exactly if it
does; anything written stops the buffer from borrowing. -/
theorem C14_display (c : Buf.Cow Char) (d : Disp) :
    (pushDisplay true c d).1.content = c.content ++ d.shown.1.flatten ∧
      (pushDisplay true c d).2 = (if d.shown.2 then .ok () else .error .formattingFailed) ∧
      (pushDisplay true c d).1.asBorrowed = (if d.shown.1 = [] then c.asBorrowed else none) := by
  obtain ⟨h1, h2, h3, h4⟩ := Buf.writeDisplay_shown d c none
  simp only [pushDisplay]
  refine ⟨h1, ?_, h4⟩
  rw [h2, h3]

/-- C14: what `collect_display` returns. -/
theorem C14_collect_display (d : Disp) :
    (∀ c, collectDisplay true d = .ok c ↔ d.shown.2 = true ∧ c = if d.shown.1 = [] then .borrowed [] else .owned d.shown.1.flatten) ∧
    (d.shown.2 = false → collectDisplay true d = .error .formattingFailed) := by
  obtain ⟨h1, h2, h3⟩ := C14_display .new d
  have hp : pushDisplay true .new d = ((pushDisplay true .new d).1, (pushDisplay true .new d).2) := rfl
  constructor
  · intro c
    rw [collectDisplay, hp, h2]
    cases hd : d.shown.2 with
    | false => simp
    | true =>
      simp only [if_true, Except.ok.injEq, true_and]
      have : (pushDisplay true .new d).1 = if d.shown.1 = [] then .borrowed [] else .owned d.shown.1.flatten := by
        by_cases hn : d.shown.1 = []
        · rw [if_pos hn] at h3 ⊢
          cases hc : (pushDisplay true .new d).1 with
          | borrowed s => rw [hc] at h1; simp [hn, Buf.Cow.content, Buf.Cow.new] at h1; simp [h1]
          | owned s => rw [hc] at h3; simp [Buf.Cow.asBorrowed, Buf.Cow.new] at h3
        · rw [if_neg hn] at h3 ⊢
          cases hc : (pushDisplay true .new d).1 with
          | borrowed s => rw [hc] at h3; simp [Buf.Cow.asBorrowed] at h3
          | owned s => rw [hc] at h1; simp [Buf.Cow.content, Buf.Cow.new] at h1; simp [h1]
      rw [this]
      exact eq_comm
  · intro hd
    rw [collectDisplay, hp, h2, hd]; rfl

/-- Does it return an error as soon as a write fails, as it should? -/
def Buf.Disp.stops : Disp → Bool
  | .ret _ => true
  | .write _ k => (match k false with | .ret false => true | _ => false)

/-- C14: without an allocator a value that writes anything, and passes errors on, is an error, and the buffer is as it
was. -/
theorem C14_display_without_alloc (c : Buf.Cow Char) (d : Disp) (hd : d.stops = true) :
    (pushDisplay false c d).1 = c ∧
      (pushDisplay false c d).2 = (if d.shown.1 ≠ [] then .error (.push .noAlloc)
        else if d.shown.2 then .ok () else .error .formattingFailed) := by
  cases d with
  | ret ok => cases ok <;> simp [pushDisplay, writeDisplay, Buf.Disp.shown]
  | write s k =>
    simp only [Buf.Disp.stops] at hd
    cases hk : k false with
    | ret ok =>
      cases ok with
      | false => simp [pushDisplay, writeDisplay, Buf.Cow.pushComputed, hk, Buf.Disp.shown]
      | true => simp [hk] at hd
    | write _ _ => simp [hk] at hd

/-- Text written in pieces, by code that uses `?`. The examples are `buffer/src/fragments.rs:873-892`. -/
def Buf.shows (ss : List Text) : Disp := ss.foldr (fun s d => .write s fun ok => if ok then d else .ret false) (.ret true)

example : (Buf.shows [t! "tr", t! "ue"]).shown = ([t! "tr", t! "ue"], true) ∧ (Buf.shows [t! "true"]).stops = true ∧
    collectDisplay true (Buf.shows [t! "true"]) = .ok (.owned (t! "true")) ∧
    (pushDisplay true (.owned (t! "true")) (Buf.shows [t! "fal", t! "se"])).1 = .owned (t! "truefalse") ∧
    pushDisplay false .new (Buf.shows [t! "true"]) = (.new, .error (.push .noAlloc)) ∧
    (pushDisplay true (.borrowed (t! "a")) (.write (t! "b") fun _ => .ret false)).1 = .owned (t! "ab") := by
  refine ⟨rfl, rfl, rfl, rfl, rfl, rfl⟩

end Sval
