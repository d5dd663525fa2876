import Verif.Core.Extract
import Verif.Core.LowerCost
import Verif.Flatten.Cost
import Verif.Nested.Cost
import Verif.Reader.Cost
import Verif.Props.Amplify
import Verif.Props.FlattenPanics

set_option autoImplicit false

/-!
# C94: the default methods, flattening, recursive streams and the JSON reader
-/

namespace Sval

open Flatten (Cfg flattenTo)

/-! ## Default methods -/

/-- C94. A stream that overrides any methods it likes gets at most nine calls for each call made on it and three for each
byte in them. They carry at most three times as much: a byte can become a number of three digits. -/
theorem C94_default (f : UInt64 → Text) (c : Caps) (ts : List Token) :
    let f32 : UInt32 → Text := fun b => f (widen b)
    (lower c ts).length ≤ 9 * ts.length + 3 * carried f32 f ts ∧ carried f32 f (lower c ts) ≤ 3 * carried f32 f ts :=
  Low.lower_cost f c ts

/-- A byte is three calls, and a record with one field fourteen. -/
example : (lower Caps.minimal [.binaryBegin (some 2), .binaryFragment [200, 201], .binaryEnd]).length = 8 ∧
    carried (fun _ => []) (fun _ => []) (lower Caps.minimal [.binaryFragment [200, 201]]) = 6 ∧
    (lower Caps.minimal (toks (.record {} none [⟨none, Label.new (t! "a"), .null⟩]))).length = 14 := by decide +kernel

/-! ## The JSON reader -/

/-- C94. What the JSON reader of `experiments` streams: at most eight calls for each character, and no more bytes than it
reads, whatever it reads and whether it ends well, in an error or in a panic. -/
theorem C94_reader (f32 : UInt32 → Text) (f64 : UInt64 → Text) (checks : Bool) (src : Text) :
    let calls := (Reader.read checks src).calls
    calls.length ≤ 8 * src.length ∧ carried f32 f64 calls ≤ utf8Len src := by
  have h1 := Reader.affords_read (f32 := f32) (f64 := f64) (a := 0) (b := 1) checks src
  have h2 := Reader.affords_read (f32 := f32) (f64 := f64) (a := 1) (b := 0) checks src
  have e : ∀ (a b : Nat) (ts : List Token), Reader.weight f32 f64 a b ts = a * carried f32 f64 ts + b * ts.length := fun a b ts =>
    carried_linear f32 f64 a b ts
  rw [e, Reader.funds] at h1 h2
  simp only
  omega

/-- Eight for a digit in a sequence; text in a map. -/
example : ((Reader.read true (t! "[1,2]")).calls.length, (Reader.read true (t! "{\"ab\":\"c\\n\"}")).calls.length,
    carried (fun _ => []) (fun _ => []) (Reader.read true (t! "{\"ab\":\"c\\n\"}")).calls) = (20, 14, 4) := by decide +kernel

/-- A number makes as many calls as there may be. -/
example : ((Reader.read true (t! "[1")).calls.length, (Reader.read true (t! "[1")).res) = (9, .err) := by decide +kernel

/-! ## Flattening -/

/-- C94. Whatever code is flattened, onto whatever stream: if `count` grows by at most one with each call on that stream,
it grows by at most six with each call that the code makes. -/
theorem C94_flatten {σ : Type} (count : σ → Nat) (cfg : Cfg) (S : Token → σ → Res Unit σ)
    (hS : ∀ t s s', (S t s = .ok s' → count s' ≤ count s + 1) ∧ ∀ e, S t s = .err e s' → count s' ≤ count s + 1)
    (p : Prog) (off n : Int) (s s' : σ) (ok : Bool) (h : flattenTo cfg S p off s = .done ok (s', n)) :
    count s' ≤ count s + 6 * (flattened cfg S p off s).length := by
  have hg : ∀ t s, Grows count 1 (S t s) s := by
    intro t s
    cases e : S t s with
    | panic => trivial
    | ok s' => exact (hS t s s').1 e
    | err x s' => exact (hS t s s').2 x e
  have := grows_exec (Flatten.call cfg S) (fun _ => 6) (fun t st => Flatten.makes_call hg t st) p .base (Flatten.begin off s)
  rw [show received (guarded (Flatten.call cfg S)) p .base (Flatten.begin off s, false) = flattened cfg S p off s from rfl] at this
  have e : ∀ ts : List Token, (ts.map fun _ => 6).sum = 6 * ts.length := by
    intro ts
    induction ts with
    | nil => rfl
    | cons t ts ih => rw [List.map_cons, List.sum_cons, ih, List.length_cons]; omega
  rw [e] at this
  unfold flattenTo drive at h
  dsimp only at h
  split at h <;> cases h
  rename_i st hd
  split at hd <;> cases hd
  exact this

/-- Six: an entry of a sequence, in a map. -/
example : flattenTo { kind := .map, alloc := true, ryu := fun _ => [] } choosy (.ofToks [.seqBegin none, .seqValueBegin]) 0 [] =
    .done true ([.mapKeyBegin, .textBegin (some 1), .textFragmentComputed (t! "0"), .textEnd, .mapKeyEnd, .mapValueBegin], 0) := by
  decide +kernel

/-- A stream that counts the bytes in its calls. -/
def weighing (t : Token) (n : Nat) : Res Unit Nat := .ok (n + t.bytes (fun _ => []) fun _ => [])

/-- One key and `n` ends of its value. -/
def manyEnds (n : Nat) : List Token :=
  [.mapBegin none, .mapKeyBegin, .textFragment (List.replicate n 'k'), .mapKeyEnd, .mapValueBegin] ++ List.replicate n .mapValueEnd

/-- The bytes are another matter: code that ends the value of a map entry again and again makes flattening into a record
repeat the key, so there is no such bound for them. -/
theorem C94_flatten_bytes_fails : ¬ ∃ a b : Nat, ∀ (ts : List Token) (s' : Nat) (n : Int) (ok : Bool),
    flattenTo (intoRecord false) weighing (.ofToks ts) 0 0 = .done ok (s', n) →
    s' ≤ a * carried (fun _ => []) (fun _ => []) ts + b * ts.length := by
  rintro ⟨a, b, h⟩
  have hlen : ∀ n, utf8Len (List.replicate n 'k') = n := by
    intro n
    induction n with
    | zero => rfl
    | succ n ih =>
      rw [List.replicate_succ, show 'k' :: List.replicate n 'k' = ['k'] ++ List.replicate n 'k' from rfl, Json.utf8Len_append, ih]
      exact Nat.add_comm 1 n
  have hc : ∀ n, carried (fun _ => []) (fun _ => []) (manyEnds n) = n := by
    intro n
    simp [carried, manyEnds, Token.bytes, hlen]
  have hl : ∀ n, (manyEnds n).length = n + 5 := by intro n; simp [manyEnds]
  -- the ends
  have ends : ∀ (K : Text) (m : Nat) (c : Int) (w : Nat),
      ∃ c', run (Flatten.call (intoRecord false) weighing) (List.replicate m .mapValueEnd)
        { ctl := { alloc := { initial := 0, current := c }, key := .text (.borrowed K), depth := 1, inKey := false }, s := w } =
        .ok { ctl := { alloc := { initial := 0, current := c' }, key := .text (.borrowed K), depth := 1, inKey := false }, s := w + m * utf8Len K } := by
    intro K m
    induction m with
    | zero => intro c w; exact ⟨c, by simp⟩
    | succ m ih =>
      intro c w
      have hn : ∃ ix c1, ({ initial := 0, current := c } : Flatten.Alloc).nextEnd false none = some (ix, { initial := 0, current := c1 }) := by
        have : ∀ x y, ∃ z, Flatten.addIsize false x y = some z := by
          intro x y
          rw [Flatten.addIsize]
          split
          · exact ⟨_, rfl⟩
          · exact ⟨_, rfl⟩
        obtain ⟨z, hz⟩ := this ((Flatten.toIsize (Flatten.offset c)).getD c) 1
        exact ⟨Flatten.offset c, z, by simp only [Flatten.Alloc.nextEnd, Flatten.Alloc.nextBegin, hz]⟩
      obtain ⟨ix, c1, hn⟩ := hn
      obtain ⟨c', hc'⟩ := ih c1 (w + utf8Len K)
      refine ⟨c', ?_⟩
      have : Flatten.call (intoRecord false) weighing .mapValueEnd
          { ctl := { alloc := { initial := 0, current := c }, key := .text (.borrowed K), depth := 1, inKey := false }, s := w } =
          .ok { ctl := { alloc := { initial := 0, current := c1 }, key := .text (.borrowed K), depth := 1, inKey := false }, s := w + utf8Len K } := by
        simp only [Flatten.call, Flatten.flattenableValue, Flatten.withKey, Flatten.withEnd, intoRecord, hn, if_true]
        rfl
      rw [List.replicate_succ, run_cons, this, Res.bind, hc', Nat.succ_mul]
      congr 2
      omega
  have whole : ∀ n, ∃ c' : Int, flattenTo (intoRecord false) weighing (.ofToks (manyEnds n)) 0 0 = .done true (n + n * n, c') := by
    intro n
    obtain ⟨c', hc'⟩ := ends (List.replicate n 'k') n 0 n
    refine ⟨c', ?_⟩
    have start : run (Flatten.call (intoRecord false) weighing)
        [.mapBegin none, .mapKeyBegin, .textFragment (List.replicate n 'k'), .mapKeyEnd, .mapValueBegin] (Flatten.begin 0 0) =
        .ok { ctl := { alloc := { initial := 0, current := 0 }, key := .text (.borrowed (List.replicate n 'k')), depth := 1, inKey := false }, s := n } := by
      generalize hK : List.replicate n 'k' = K
      have hk : utf8Len K = n := by rw [← hK, hlen]
      have h4 : run (Flatten.call (intoRecord false) weighing) [.mapBegin none, .mapKeyBegin, .textFragment K, .mapKeyEnd] (Flatten.begin 0 0) =
          .ok { ctl := { side := { label := .text (.borrowed K) }, alloc := { initial := 0, current := 0 }, depth := 1, inKey := false }, s := 0 } := rfl
      have h5 : run (Flatten.call (intoRecord false) weighing) [.mapValueBegin]
          { ctl := { side := { label := .text (.borrowed K) }, alloc := { initial := 0, current := 0 }, depth := 1, inKey := false }, s := 0 } =
          .ok { ctl := { alloc := { initial := 0, current := 0 }, key := .text (.borrowed K), depth := 1, inKey := false }, s := 0 + utf8Len K } := rfl
      rw [show [Token.mapBegin none, .mapKeyBegin, .textFragment K, .mapKeyEnd, .mapValueBegin] =
        [.mapBegin none, .mapKeyBegin, .textFragment K, .mapKeyEnd] ++ [.mapValueBegin] from rfl, run_append, h4, Res.bind, h5, hk, Nat.zero_add]
    rw [flattenTo, drive_ofToks, manyEnds, run_append, start, Res.bind, hc', hlen]
    rfl
  obtain ⟨c', hw⟩ := whole (a + 6 * b + 1)
  have := h _ _ _ _ hw
  rw [hc, hl] at this
  have e : (a + 6 * b + 1) * (a + 6 * b + 1) = a * (a + 6 * b + 1) + b * (6 * (a + 6 * b + 1)) + (a + 6 * b + 1) := by
    rw [Nat.add_mul, Nat.add_mul, Nat.one_mul, Nat.mul_comm 6 b, Nat.mul_assoc]
  have f : b * (a + 6 * b + 1 + 5) ≤ b * (6 * (a + 6 * b + 1)) := Nat.mul_le_mul_left _ (by omega)
  omega

/-! ## Recursive streams -/

/-- C94. Whatever code is streamed to a recursive stream: if `count` grows by at most one with each method that is called, it
grows by at most two for each call that the code can make. -/
theorem C94_nested {σ : Type} (count : σ → Nat) (C : Nested.Cb → σ → Res Unit σ)
    (hC : ∀ c s s', (C c s = .ok s' → count s' ≤ count s + 1) ∧ ∀ e, C c s = .err e s' → count s' ≤ count s + 1)
    (p : Prog) (computed : Bool) (s s' : σ) (ok : Bool) (h : Nested.stream C computed p s = .done ok s') :
    count s' ≤ count s + 2 * p.most := by
  have hg : ∀ c s, Grows count 1 (C c s) s := by
    intro c s
    cases e : C c s with
    | panic => trivial
    | ok s' => exact (hC c s s').1 e
    | err x s' => exact (hC c s s').2 x e
  rw [Nested.stream] at h
  split at h <;> cases h
  rename_i ok st he
  have := Nested.costs_exec hg p computed _ st ok he
  simp only [Nested.pot, Nested.Mode.owed] at this
  omega

/-- A recursive stream that counts. -/
def tally (_ : Nested.Cb) (n : Nat) : Res Unit Nat := .ok (n + 1)

/-- Enums in enums: eight calls and six methods, of which four are the begins and ends of the inner enums. -/
example : (Nested.stream tally false (.ofToks [.enumBegin {}, .enumBegin {}, .enumBegin {}, .tag {}, .enumEnd {}, .enumEnd {}, .enumEnd {}]) 0,
    (Prog.ofToks [.enumBegin {}, .enumBegin {}, .enumBegin {}, .tag {}, .enumEnd {}, .enumEnd {}, .enumEnd {}]).most) =
    (.done true 6, 7) := by decide +kernel

end Sval
