import Verif.Flatten.Wild
import Verif.Props.Panics

set_option autoImplicit false

/-!
# C93: wrong calls and panics, flattening
-/

namespace Sval

open Flatten (Cfg flattenTo)

/-- The calls that a flattener gets. -/
def flattened {σ : Type} (cfg : Cfg) (S : Token → σ → Res Unit σ) (p : Prog) (off : Int) (s : σ) : List Token :=
  received (guarded (Flatten.call cfg S)) p .base (Flatten.begin off s, false)

/-- C93. Without overflow checks flattening does not panic, whatever it is given, unless the stream behind it does. -/
theorem C93_flatten_unchecked {σ : Type} (cfg : Cfg) (hc : cfg.checks = false) (S : Token → σ → Res Unit σ)
    (hS : ∀ t s, S t s ≠ .panic) (p : Prog) (off : Int) (s : σ) : ∃ ok r, flattenTo cfg S p off s = .done ok r := by
  have hm : Flatten.Mild false S := fun t s => by
    have := hS t s
    revert this
    cases S t s <;> simp
  have : (exec (guarded (Flatten.call cfg S)) p .base (Flatten.begin off s, false)).1.2 = false := by
    refine exec_inv _ (fun s : Flatten.St σ × Bool => s.2 = false) (fun t s h => ?_) p .base _ rfl
    obtain ⟨st, b⟩ := s
    cases h
    have hn := Flatten.unchecked_call hc hm t st
    have hg := Flatten.guarded_fst (Flatten.call cfg S) t st
    revert hn hg
    cases Flatten.call cfg S t st with
    | ok _ => intro _ hg; rw [hg]
    | err _ _ => intro _ hg; rw [hg]
    | panic => exact fun h => absurd rfl h
  unfold flattenTo drive
  simp only [this]
  exact ⟨_, _, rfl⟩

theorem flattenTo_panicked {σ : Type} (cfg : Cfg) (S : Token → σ → Res Unit σ) (p : Prog) (off : Int) (s : σ) :
    flattenTo cfg S p off s = .panicked ↔
      ((flattened cfg S p off s).foldl (fun s t => (guarded (Flatten.call cfg S) t s).1) (Flatten.begin off s, false)).2 = true := by
  rw [flattened, ← exec_received]
  unfold flattenTo drive
  simp only
  cases (exec (guarded (Flatten.call cfg S)) p .base (Flatten.begin off s, false)).1.2 <;> simp

/-- A stream that keeps its calls, and refuses numbers. -/
def choosy (t : Token) (s : List Token) : Res Unit (List Token) :=
  match t with
  | .int _ _ => .err () s
  | _ => .ok (s ++ [t])

/-- Flattening into a record. -/
def intoRecord (checks : Bool) : Cfg := { kind := .record, alloc := true, ryu := fun _ => [], checks }

/-- Ends without begins, and going on after errors. -/
example : flattenTo (intoRecord false) choosy
    (jumble [.mapEnd, .seqEnd, .int .i64 1, .seqValueBegin, .taggedEnd {}, .tupleValueEnd none (Index.ofInt (2 ^ 63)), .mapBegin none]) 5 [] =
    .done true ([.mapEnd, .seqEnd, .seqValueBegin, .taggedEnd {}, .tupleValueEnd none (Index.ofInt (2 ^ 63)), .mapBegin none], 5) := by
  decide +kernel

/-- C93. With overflow checks a panic takes calls that end more than was begun, where a tagged value counts as an end if
an enum was begun before: whatever else the code does, and whether it goes on after errors. The indexes are to be small
enough for `isize`, for which see `C83`. -/
theorem C93_flatten {σ : Type} (cfg : Cfg) (S : Token → σ → Res Unit σ) (hS : ∀ t s, S t s ≠ .panic) (p : Prog) (off : Int)
    (s : σ) (B : Nat) (hB : ∀ t ∈ flattened cfg S p off s, ∀ i, Flatten.asked t = some i → i.val.natAbs ≤ B)
    (hn : off.natAbs + B + (flattened cfg S p off s).length < 2 ^ 63) (h : flattenTo cfg S p off s = .panicked) :
    Flatten.dips false (flattened cfg S p off s) false 0 = true := by
  have hm : Flatten.Mild false S := fun t s => by
    have := hS t s
    revert this
    cases S t s <;> simp
  exact Flatten.counted_fold (off := off) hm (fun h => by cases h) _ hB (K := off.natAbs + B) (Nat.le_refl _) hn _
    ⟨⟨rfl, Nat.le_add_right _ _⟩, Int.le_refl _, fun h => by cases h⟩ ((flattenTo_panicked cfg S p off s).mp h)

/-- C93. Exactly when flattening panics, with overflow checks, if the stream behind it does not fail: when something is
ended at depth zero. A tagged value counts if an enum was begun at depth zero before. -/
theorem C93_flatten_exact {σ : Type} (cfg : Cfg) (hc : cfg.checks = true) (ha : cfg.alloc = true) (S : Token → σ → Res Unit σ)
    (hS : ∀ t s, ∃ s', S t s = .ok s') (p : Prog) (off : Int) (s : σ) (B : Nat)
    (hB : ∀ t ∈ flattened cfg S p off s, ∀ i, Flatten.asked t = some i → i.val.natAbs ≤ B)
    (hn : off.natAbs + B + (flattened cfg S p off s).length < 2 ^ 63) :
    flattenTo cfg S p off s = .panicked ↔ Flatten.dips true (flattened cfg S p off s) false 0 = true := by
  have hm : Flatten.Mild true S := fun t s => by
    obtain ⟨s', h⟩ := hS t s
    rw [h]
    trivial
  have h0 : Flatten.Counted true off (off.natAbs + B) false 0 (Flatten.begin off s).ctl.alloc (Flatten.begin off s).ctl.depth
      (Flatten.begin off s).ctl.inEnum := ⟨⟨rfl, Nat.le_add_right _ _⟩, rfl, rfl⟩
  rw [flattenTo_panicked]
  exact ⟨Flatten.counted_fold hm (fun _ => ha) _ hB (Nat.le_refl _) hn _ h0,
    Flatten.counted_dips hc hm ha _ hB (Nat.le_refl _) hn _ h0⟩

/-- Calls that make no sense, but end no more than they begin. -/
example : flattenTo (intoRecord true) choosy
      (jumble [.mapBegin none, .mapValueEnd, .int .i64 1, .recordBegin {} none, .int .i64 1, .seqEnd, .enumBegin {}, .tupleEnd {}]) 5 [] =
      .done true ([.recordValueEnd none (Label.newComputed []), .recordBegin {} none, .seqEnd, .enumBegin {}], 6) ∧
    Flatten.dips false (flattened (intoRecord true) choosy
      (jumble [.mapBegin none, .mapValueEnd, .int .i64 1, .recordBegin {} none, .int .i64 1, .seqEnd, .enumBegin {}, .tupleEnd {}]) 5 []) false 0 = false := by
  decide +kernel

/-- C93 fails, as `C93_flatten_exact` says: an end too many, and an enum in something tagged. -/
theorem C93_fails_flatten :
    flattenTo (intoRecord true) choosy (jumble [.mapBegin none, .seqEnd, .seqEnd]) 0 [] = .panicked ∧
    flattenTo (intoRecord true) choosy
      (jumble [.taggedBegin {}, .enumBegin {}, .tag {}, .enumEnd {}, .taggedEnd {}]) 0 [] = .panicked ∧
    Flatten.dips true (flattened (intoRecord true) choosy
      (jumble [.taggedBegin {}, .enumBegin {}, .tag {}, .enumEnd {}, .taggedEnd {}]) 0 []) false 0 = true := by
  decide +kernel

end Sval
