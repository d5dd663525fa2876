import Verif.Json.Bytes
import Verif.Props.Json
import Verif.Props.Reader

set_option autoImplicit false

/-!
# C87: code that works with bytes never cuts a character

The reader, the two loops of the JSON formatter and the one of `sval_fmt` look at bytes, and keep positions in bytes.
-/

namespace Sval
open Json

/-- C87, slices. `&v[a..b]` gives a text just if the text before it has `a` bytes, and that up to its end `b`; otherwise it
panics. -/
theorem C87_slice (v t : Text) (a b : Nat) :
    sliceBytes v a b = some t ↔ ∃ p q, v = p ++ t ++ q ∧ (utf8 p).length = a ∧ (utf8 (p ++ t)).length = b := by
  constructor
  · intro h
    rw [sliceBytes] at h
    split at h
    · rename_i hab
      cases hd : dropBytes v a with
      | none => rw [hd] at h; cases h
      | some u =>
        rw [hd, Option.bind_some] at h
        obtain ⟨p, rfl, hp⟩ := dropBytes_some v a u hd
        obtain ⟨q, rfl, hq⟩ := takeBytes_some u _ t h
        exact ⟨p, q, by simp, by rw [utf8Len_eq, hp], by rw [utf8Len_eq, utf8Len_append, hp, hq]; omega⟩
    · cases h
  · rintro ⟨p, q, rfl, rfl, rfl⟩
    rw [utf8Len_eq, utf8Len_eq, utf8Len_append, sliceBytes_append]

example : sliceBytes (t! "né1") 1 3 = some (t! "é") ∧ sliceBytes (t! "né1") 2 3 = none := by decide +kernel

/-- C87, the reader. On the bytes of any text, the reader makes the same calls and ends in the same way as the reader over
characters that C53 to C56 are about: it finds each text at the boundaries of characters, and `from_utf8` does not fail. -/
theorem C87_reader (checks : Bool) (t : Text) (n : Nat) (h : t.length < n) :
    Reader.Bytes.read checks n (utf8 t) = some (Reader.read checks t) :=
  Reader.Bytes.sim_read checks t n h

example : Reader.Bytes.read true 20 (utf8 (t! "[\"né\\n\", 1e5 ]")) = some (Reader.read true (t! "[\"né\\n\", 1e5 ]")) ∧
    (Reader.read true (t! "[\"né\\n\", 1e5 ]")).calls.take 6 =
      [.seqBegin none, .seqValueBegin, .textBegin none, .textFragment (t! "né"), .textFragment (t! "\n"), .textFragment []] ∧
    (Reader.read true (t! "[\"né\\n\", 1e5 ]")).res = .ok () :=
  ⟨C87_reader true _ _ (by decide), by decide +kernel, by decide +kernel⟩

/-- C87, numbers in text. The loop over the bytes of a fragment does what the loop over its characters does, so that only
the slice at its end can cut a character, see `C23_panics`. -/
theorem C87_number {ω : Type} (w : Json.Writer ω) (v : Text) (r : NumRun ω) : numLoopB w (utf8 v) r = numLoop w v r :=
  numLoopB_utf8 w v r

example : numLoopB Json.strWriter (utf8 (t! "-1é5")) { st := {}, out := [] } =
    .ok { st := { atStart := false, neg := true }, start := 1, stop := 5, out := t! "-" } ∧
    sliceBytes (t! "-1é5") 1 5 = some (t! "1é5") := ⟨by rw [C87_number]; rfl, by decide +kernel⟩

/-- C87, escaped text in `sval_fmt`. The slices between two escaped characters are always texts, and what is written is
what escaping one character after the other writes. -/
theorem C87_fmt {ω : Type} (w : Fmt.Writer ω) (env : Fmt.Env) (t : Text) (o : ω) : Fmt.escapeAt w env t 0 0 t o = Fmt.writeText w env t o :=
  Fmt.escapeAt_eq w env [] [] t o

example : Fmt.escapeAt Fmt.strWriter ⟨fun _ => [], fun _ => [], fun _ => false, fun _ => true⟩ (t! "é\"né\n") 0 0 (t! "é\"né\n") [] =
    .ok (t! "é\\\"né\\n") := by decide +kernel

end Sval
