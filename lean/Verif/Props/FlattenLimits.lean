import Verif.Props.Flatten

set_option autoImplicit false

/-!
# C83: flattening at the limits of `isize`
-/

namespace Sval

open Flatten

/-- The calls made for entries up to the first whose offset does not fit: of that one none, if its own offset cannot be
added to the one flattening started at, and otherwise all but the last. -/
def fittingCalls (cfg : Flatten.Cfg) (body : V → List Token) (k : Int) (es : List Entry) : List Token :=
  cut cfg.kind (keyLabel cfg) body k k es

theorem cut_congr (kind : Kind) (K : V → Text) (f g : V → List Token) (h : ∀ v, f v = g v) (k c : Int) (es : List Entry) :
    cut kind K f k c es = cut kind K g k c es := by
  have : f = g := funext h
  rw [this]

/-- C83. In builds without overflow checks flattening never panics by itself: offsets wrap around, whatever the value and
the offset it starts at. -/
theorem C83_wraps (cfg : Flatten.Cfg) (ha : cfg.alloc = true) (hc : cfg.checks = false) (v : V) (k : Int) (hk : isIsize k) :
    FlattensTo cfg v k
      (entryCalls cfg reopened (number k k (entries v)).1 ++ (enumTags v).map Token.taggedEnd) (number k k (entries v)).2 := by
  by_cases ht : enumTags v = []
  · rw [ht, List.map_nil, List.append_nil]
    exact C29_exact cfg ha v k hk (enumTags_nil.mp ht) (fun h => by rw [hc] at h; cases h)
  · exact C29_tagged_wraps cfg ha hc v k hk ht

/-- C83. In builds with overflow checks, flattening a value with an offset that does not fit panics, after exactly the
calls that came before it. -/
theorem C83_panics (cfg : Flatten.Cfg) (ha : cfg.alloc = true) (hc : cfg.checks = true) (v : V) (k : Int) (hk : isIsize k)
    (hr : ¬ inRange k k (entries v)) {σ : Type} (S : Token → σ → Res Unit σ) (s : σ) :
    match run S (fittingCalls cfg reopened k (entries v)) s with
    | .err _ s' => ∃ o, flattenTo cfg S (valueOf v) k s = .done false (s', o)
    | _ => flattenTo cfg S (valueOf v) k s = .panicked := by
  have this : Agrees.Broken (run (call cfg S) (toks v) ⟨{ alloc := { initial := k, current := k } }, s⟩)
      (run S (cut cfg.kind (keyLabel cfg) broken k k (entries v)) s) := bursts_value (cfg := cfg) hc v { alloc := { initial := k, current := k } } ⟨rfl, rfl, rfl, rfl, hk⟩
    (fun _ _ => .inl ha) hr σ S s
  rw [fittingCalls, cut_congr _ _ _ _ reopened_eq]
  simp only [flattenTo, valueOf, drive_ofToks, begin]
  cases hq : run (call cfg S) (toks v) ⟨{ alloc := { initial := k, current := k } }, s⟩ <;>
    cases hp : run S (cut cfg.kind (keyLabel cfg) broken k k (entries v)) s <;>
    rw [hq, hp] at this <;>
    simp only [Agrees.Broken] at this
  · subst this
    simp [Res.outcome]
  · simp [Res.outcome]
  · simp [Res.outcome]

/-- C83. So flattening onto a container that never fails panics in exactly these cases: in builds with overflow checks,
if an offset does not fit or the value is a tagged enum. -/
theorem C83_panics_iff (cfg : Flatten.Cfg) (ha : cfg.alloc = true) (v : V) (k : Int) (hk : isIsize k) :
    flattenTo cfg keepAll (valueOf v) k [] = .panicked ↔
      cfg.checks = true ∧ (¬ inRange k k (entries v) ∨ untaggedEnum v = false) := by
  cases hc : cfg.checks with
  | false =>
    have := C83_wraps cfg ha hc v k hk _ keepAll []
    rw [run_keepAll] at this
    simp only at this
    rw [this]
    simp
  | true =>
    by_cases hr : inRange k k (entries v)
    · rcases tagged_or_not v with hu | ⟨m, hm⟩
      · have := C29_exact cfg ha v k hk hu (fun _ => hr) _ keepAll []
        rw [run_keepAll] at this
        simp only at this
        rw [this]
        simp [hr, hu]
      · have := C29_tagged_exact cfg ha hc v k hk m hm hr keepAll []
        rw [run_keepAll] at this
        simp only at this
        have hu : untaggedEnum v = false := by
          cases hu : untaggedEnum v with
          | false => rfl
          | true =>
            have h1 := C29_exact cfg ha v k hk hu (fun _ => hr) _ keepAll []
            rw [run_keepAll] at h1
            simp only at h1
            rw [this] at h1
            cases h1
        simp [this, hu]
    · have := C83_panics cfg ha hc v k hk hr keepAll []
      rw [run_keepAll] at this
      simp only at this
      simp [this, hr]

/-- C83. As long as offsets fit and there is no tagged enum, both kinds of builds do the same. -/
theorem C83_builds (cfg : Flatten.Cfg) (ha : cfg.alloc = true) (b : Bool) (v : V) (k : Int) (hk : isIsize k)
    (hu : untaggedEnum v = true) (hr : inRange k k (entries v)) :
    FlattensTo { cfg with checks := b } v k (entryCalls cfg reopened (number k k (entries v)).1) (number k k (entries v)).2 :=
  C29_exact { cfg with checks := b } ha v k hk hu fun _ => hr

/-- Entries without indexes of their own are numbered from the starting offset, going round at the limit. -/
theorem number_wraps (k c : Int) (hc : isIsize c) (es : List Entry) (h : ∀ e ∈ es, e.index = none) :
    number k c es = (es.mapIdx fun j e => (e, ⟨wrap (c + j), some tags.VALUE_OFFSET⟩), wrap (c + es.length)) := by
  induction es generalizing c with
  | nil => simp [number, wrap_eq hc]
  | cons e es ih =>
    have hp : place k c e = ⟨c, some tags.VALUE_OFFSET⟩ := by
      unfold place
      rw [h e (by simp)]
    have ha : after c (place k c e) = wrap (c + 1) := by
      rw [hp]
      unfold after last
      rw [if_pos hc]
    have hw : ∀ x : Int, wrap (wrap (c + 1) + x) = wrap (c + (1 + x)) := by
      intro x
      unfold wrap
      omega
    rw [number_cons, ha, ih _ (isIsize_wrap _) (fun e he => h e (by simp [he])), hp]
    refine Prod.ext ?_ ?_
    · simp only [List.mapIdx_cons]
      congr 1
      · simp [wrap_eq hc]
      · refine List.ext_getElem (by simp) fun i h1 h2 => ?_
        simp [hw, Int.add_comm 1]
    · simp [hw, Int.add_comm 1]

/-- C83. So without overflow checks, the entries of a value without indexes are numbered from the starting offset, going
round from the largest `isize` to the smallest. -/
theorem C83_wraps_dense (cfg : Flatten.Cfg) (ha : cfg.alloc = true) (hc : cfg.checks = false) (v : V) (k : Int) (hk : isIsize k)
    (hu : untaggedEnum v = true) (hi : ∀ e ∈ entries v, e.index = none) :
    FlattensTo cfg v k
      (entryCalls cfg reopened ((entries v).mapIdx fun j e => (e, ⟨wrap (k + j), some tags.VALUE_OFFSET⟩)))
      (wrap (k + (entries v).length)) := by
  have := C83_wraps cfg ha hc v k hk
  rwa [enumTags_nil.mpr hu, List.map_nil, List.append_nil, number_wraps k k hk _ hi] at this

/-! ## Cases -/

/-- A flattener in a build without overflow checks. -/
def loose (kind : Flatten.Kind) : Flatten.Cfg := { flat kind with checks := false }

/-- Two elements at the largest offset: without checks the second is numbered by the smallest. -/
example : flattenTo (loose .tuple) keepAll (valueOf (.seq none [.null, .bool true])) (2 ^ 63 - 1) [] = .done true
    (toksTup [(none, ⟨2 ^ 63 - 1, some tags.VALUE_OFFSET⟩, .null), (none, ⟨-2 ^ 63, some tags.VALUE_OFFSET⟩, .bool true)],
      -2 ^ 63 + 1) := by
  decide +kernel

/-- With checks the end of the first panics. -/
example : flattenTo (flat .tuple) keepAll (valueOf (.seq none [.null, .bool true])) (2 ^ 63 - 1) [] = .panicked ∧
    fittingCalls (flat .tuple) reopened (2 ^ 63 - 1) (entries (.seq none [.null, .bool true])) =
      [.tupleValueBegin none ⟨2 ^ 63 - 1, some tags.VALUE_OFFSET⟩, .null] := by
  decide +kernel

/-- Two fields with offsets of their own, the second of which cannot be added: with checks the first is there. -/
def farTuple : V := .tuple {} none [(none, ⟨0, some tags.VALUE_OFFSET⟩, .null), (none, ⟨2 ^ 63 - 1, some tags.VALUE_OFFSET⟩, .null)]

example : flattenTo (flat .tuple) keepAll (valueOf farTuple) 5 [] = .panicked ∧
    fittingCalls (flat .tuple) reopened 5 (entries farTuple) = toksTup [(none, ⟨5, some tags.VALUE_OFFSET⟩, .null)] := by
  decide +kernel

example : ¬ inRange 5 5 (entries farTuple) ∧ isIsize 5 ∧ inRange 0 0 (entries (.seq none [.null])) := by decide +kernel

/-- The tagged enum of `C29_tagged_exact` without checks: the ends of both tags come after the entry. -/
example : flattenTo (loose .record) keepAll (valueOf taggedEnum) 0 [] = .done true
    (toksRec [(none, Label.new (t! "B"), .bool true)] ++
      [.taggedEnd { label := some (Label.new (t! "I")) }, .taggedEnd { label := some (Label.new (t! "O")) }], 1) := by
  decide +kernel

/-- C83: a value for which the two kinds of builds differ. -/
theorem C83_differ : flattenTo (flat .record) keepAll (valueOf (.tagged {} (.enum {} .null))) 0 [] = .panicked ∧
    flattenTo (loose .record) keepAll (valueOf (.tagged {} (.enum {} .null))) 0 [] = .done true ([.taggedEnd {}], 0) := by
  decide +kernel

end Sval
