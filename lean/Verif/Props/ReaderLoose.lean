import Verif.Reader.Loose

set_option autoImplicit false

/-!
# C55: exactly which texts the experimental JSON reader accepts, refuses and panics on
-/

namespace Sval

open Reader

/-- C55, exactly: what becomes of any text with no more than 91 opening brackets. It is accepted just if it is in the
grammar `Loose` (`Reader/LooseSpec.lean`): items need no commas between them, commas and colons need no items, a string
need not end. It is refused with an error just if it could go on to be in that grammar with something that only closes
what is open, and does not stop right behind the start of a string or an escape. On everything else the reader panics. -/
theorem C55_exact (checks : Bool) (t : Text) (h : opens t ≤ 91) :
    ((read checks t).res = .ok () ↔ LooseDoc (fun _ => True) t) ∧
    ((read checks t).res = .err ↔ ¬ LooseDoc (fun _ => True) t ∧ dangling false t = false ∧
      ∃ u, Closers u ∧ LooseDoc (fun _ => True) (t ++ ' ' :: u)) ∧
    ((read checks t).res = .panic ↔ ¬ LooseDoc (fun _ => True) t ∧
      (dangling false t = true ∨ ∀ u, Closers u → ¬ LooseDoc (fun _ => True) (t ++ ' ' :: u))) := by
  have h1 : (read checks t).res = .ok () ↔ LooseDoc (fun _ => True) t := by
    rw [looseDoc_room h]; exact read_loose checks (.inr h)
  have h2 : (read checks t).res = .err ↔ ¬ LooseDoc (fun _ => True) t ∧ dangling false t = false ∧
      ∃ u, Closers u ∧ LooseDoc (fun _ => True) (t ++ ' ' :: u) := by
    rw [read_refused checks h, looseDoc_room h]
    refine and_congr_right fun _ => and_congr_right fun _ => exists_congr fun u => and_congr_right fun hu => ?_
    rw [looseDoc_room (by rw [opens_closers hu]; exact h)]
  refine ⟨h1, h2, ?_⟩
  constructor
  · intro hp
    refine ⟨fun hl => ?_, ?_⟩
    · rw [h1.2 hl] at hp; cases hp
    · cases hd : dangling false t with
      | true => exact .inl rfl
      | false =>
        refine .inr fun u hu hl => ?_
        by_cases hn : LooseDoc (fun _ => True) t
        · rw [h1.2 hn] at hp; cases hp
        · rw [h2.2 ⟨hn, hd, u, hu, hl⟩] at hp; cases hp
  · rintro ⟨hn, hd⟩
    cases hr : (read checks t).res with
    | panic => rfl
    | ok => exact absurd (h1.1 hr) hn
    | err =>
      obtain ⟨_, h3, u, h4, h5⟩ := h2.1 hr
      rcases hd with hd | hd
      · rw [h3] at hd; cases hd
      · exact absurd h5 (hd u h4)

/-- C55 in builds with overflow checks, for texts with any number of brackets: what is accepted is the grammar, as far as
there is room for the brackets in the counters. -/
theorem C55_checked (t : Text) : (read true t).res = .ok () ↔ LooseDoc Room t := read_loose true (.inl rfl)

/-- A text that is nearly nowhere JSON. -/
def looseSample : Text := t! "[{\"a\" \"b\":1 2,:} {},, -.] true\"x"

/-- It is in the grammar, and so it is accepted. -/
example : LooseDoc (fun _ => True) looseSample ∧ opens looseSample ≤ 91 ∧ (∀ checks, (read checks looseSample).res = .ok ()) := by
  have h : opens looseSample ≤ 91 := by decide
  have hl : LooseDoc (fun _ => True) looseSample := by
    have a : Str (t! "\"a\"") := ⟨t! "a", .raw 'a' (by decide) (by decide) .nil, rfl⟩
    have b : Str (t! "\"b\"") := ⟨t! "b", .raw 'b' (by decide) (by decide) .nil, rfl⟩
    have n1 {st : List Kind} : Loose (fun _ => True) .item st (t! "1") := .number ⟨'1', [], rfl, .inr rfl, nofun⟩
    have n2 {st : List Kind} : Loose (fun _ => True) .item st (t! "2") := .number ⟨'2', [], rfl, .inr rfl, nofun⟩
    have n3 {st : List Kind} : Loose (fun _ => True) .item st (t! "-.") :=
      .number ⟨'-', t! ".", rfl, .inl rfl, by intro d hd; simp only [List.mem_singleton] at hd; subst hd; exact .inr (by decide)⟩
    have m {st : List Kind} : Loose (fun _ => True) .item st (t! "{\"a\" \"b\":1 2,:}") :=
      .map (w := []) trivial rfl a (.membersWs (c := ' ') rfl (.membersKey b
        (.membersMore (b := t! "1 2") (.items n1 (.itemsWs (c := ' ') rfl (.items n2 .itemsNil))) (.membersLast .itemsNil))))
    have s : Loose (fun _ => True) .item [] (t! "[{\"a\" \"b\":1 2,:} {},, -.]") :=
      .seq (w := []) trivial rfl m (.elemsWs (c := ' ') rfl (.elems (.mapEmpty (w := []) trivial rfl)
        (.elemsComma (.elemsComma (.elemsWs (c := ' ') rfl (.elems n3 .elemsNil))))))
    exact ⟨_, t! "\"x", rfl, .items s (.itemsWs (c := ' ') rfl (.items (.word (t := t! "true") (by simp)) .itemsNil)),
      .inr ⟨[], 'x', .nil, by decide, by decide, rfl⟩⟩
  exact ⟨hl, h, fun checks => (C55_exact checks looseSample h).1.2 hl⟩

/-- Texts that are refused, and so could go on, and texts that are not in the grammar and could not. -/
example : (∀ t ∈ [t! "[1, {", t! "{\"a\"", t! "[\"a b", t! "{\"a\":1,"], ∃ u, Closers u ∧ LooseDoc (fun _ => True) (t ++ ' ' :: u)) ∧
    (∀ t ∈ [t! "[,1]", t! "{\"a\"}", t! "1,", t! "[tru", t! "\"\\t\"", t! "\"", t! "{:1}"], ¬ LooseDoc (fun _ => True) t) := by
  constructor
  · intro t ht
    have h : opens t ≤ 91 := by revert t; decide
    exact ((C55_exact true t h).2.1.1 (by revert t; decide +kernel)).2.2
  · intro t ht hl
    have h : opens t ≤ 91 := by clear hl; revert t; decide
    have := (C55_exact true t h).1.2 hl
    clear hl h
    revert t; decide +kernel

end Sval
