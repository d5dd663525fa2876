import Verif.Derive.AttrSpec
import Verif.Props.Derive

set_option autoImplicit false

/-!
# C59: attributes of derived types

The full statement is: whatever attributes an item has, deriving `Value` either fails to compile, or every attribute that
is given is honoured, whatever the order of attributes and however they are grouped.

`C59_exact` says which items compile, and that what code is generated for is what is written, and `C59_order` that order
and grouping do not matter. `C59_type` is about the attributes of types. Attributes that are read and have no effect are in
`C59_fails_*`; `C59_variant_partial`, `C59_fields_partial` and `C59_variant_fields_partial` are about variants and fields
elsewhere.
-/

namespace Sval
open Derive Rust

namespace Derive

/-! ## Lemmas -/

theorem mapM_iff {α β : Type} (g : α → Option β) (xs : List α) (ys : List β) :
    xs.mapM g = some ys ↔ Each (fun x y => g x = some y) xs ys := by
  induction xs generalizing ys with
  | nil => cases ys <;> simp [Each]
  | cons x xs ih =>
    rw [List.mapM_cons, bind_iff]
    cases ys with
    | nil =>
      simp only [Each, bind_iff, iff_false]
      rintro ⟨a, -, b, -, h⟩
      cases h
    | cons y ys =>
      simp only [Each, ← ih, bind_iff]
      constructor
      · rintro ⟨a, ha, b, hb, h⟩
        cases h
        exact ⟨ha, hb⟩
      · rintro ⟨h1, h2⟩
        exact ⟨_, h1, _, h2, rfl⟩

theorem each_iff {α β : Type} {R S : α → β → Prop} (h : ∀ x y, R x y ↔ S x y) (xs : List α) (ys : List β) :
    Each R xs ys ↔ Each S xs ys := by
  have : R = S := funext fun x => funext fun y => propext (h x y)
  rw [this]

theorem countP_all {α : Type} (p : α → Bool) (l : List α) :
    (l.countP p = 0 ∨ l.countP p = l.length) ↔ (∀ x ∈ l, p x = false) ∨ ∀ x ∈ l, p x = true := by
  simp only [List.countP_eq_zero, List.countP_eq_length, Bool.not_eq_true]

/-- The assertions about labels and indexes. -/
theorem structFields_iff (N : Names) (feature : Bool) (a : Attrs) (xs : List (Option Text × List Attribute)) (fs : List Field) :
    structFields N feature a xs = some fs ↔ FieldsWritten N feature a xs fs := by
  rw [structFields, bind_iff, FieldsWritten]
  have hl := plans_label a {} fs
  have hs := plans_slot a {} fs
  have hix : (plans a {} fs).countP (·.slot.isSome) = 0 ∨ (plans a {} fs).countP (·.slot.isSome) = (plans a {} fs).length := by
    rw [countP_all (fun p : Plan => p.slot.isSome)]
    cases hu : a.unindexed
    · right; intro p hp; simp [hs p hp, hu]
    · left; intro p hp; simp [hs p hp, hu]
  have hlb : ((plans a {} fs).countP (·.label.isSome) = 0 ∨ (plans a {} fs).countP (·.label.isSome) = (plans a {} fs).length) ↔
      (a.unlabeled = true ∨ (∀ f ∈ fs, f.skip = false → (nameOf f).isSome = true) ∨ ∀ f ∈ fs, f.skip = false → nameOf f = none) := by
    have e1 : (plans a {} fs).countP (·.label.isSome) = ((plans a {} fs).map (·.label)).countP (·.isSome) := by
      rw [List.countP_map]; rfl
    have e2 : (plans a {} fs).length = ((plans a {} fs).map (·.label)).length := by simp
    rw [e1, e2, countP_all (fun l : Option Label => l.isSome), hl]
    cases hu : a.unlabeled
    · simp only [Bool.false_eq_true, if_false, List.forall_mem_map, List.mem_filter, Bool.not_eq_true', false_or, and_imp,
        Option.isSome_eq_false_iff, Option.isNone_iff_eq_none]
      exact Or.comm
    · simp
  have cond : ∀ p : List Plan, ((p.countP (·.label.isSome) = 0 || p.countP (·.label.isSome) = p.length : Bool) &&
      (p.countP (·.slot.isSome) = 0 || p.countP (·.slot.isSome) = p.length : Bool)) = true ↔
      (p.countP (·.label.isSome) = 0 ∨ p.countP (·.label.isSome) = p.length) ∧
      (p.countP (·.slot.isSome) = 0 ∨ p.countP (·.slot.isSome) = p.length) := by
    intro p; simp
  constructor
  · rintro ⟨gs, h1, h2⟩
    dsimp only at h2
    split at h2
    · rename_i hc
      cases h2
      exact ⟨(each_iff (fun x f => fieldAttrs_iff N feature a x f) _ _).mp ((mapM_iff _ _ _).mp h1), hlb.mp ((cond _).mp hc).1⟩
    · cases h2
  · rintro ⟨h1, h2⟩
    refine ⟨fs, (mapM_iff _ _ _).mpr ((each_iff (fun x f => fieldAttrs_iff N feature a x f) _ _).mpr h1), ?_⟩
    dsimp only
    rw [if_pos ((cond _).mpr ⟨hlb.mpr h2, hix⟩)]
    rfl

theorem discrOf_iff (N : Names) (x : Option (Expr × Int)) (d : Option Discr) :
    discrOf N x = some d ↔ DiscrWritten x d := by
  match x with
  | none => cases d <;> simp [discrOf, DiscrWritten]
  | some (.path p, v) =>
    rcases d with - | (i | i | i) <;> simp [discrOf, tryIndex, DiscrWritten, eq_comm]
  | some (.other, v) =>
    rcases d with - | (i | i | i) <;> simp [discrOf, tryIndex, DiscrWritten, eq_comm]
  | some (.lit l, v) =>
    cases l with
    | int n =>
      by_cases hn : n < 2 ^ 63
      · rcases d with - | (i | i | i) <;> simp [discrOf, tryIndex, constFromLit, hn, DiscrWritten, eq_comm]
      · rcases d with - | (i | i | i) <;> simp [discrOf, tryIndex, constFromLit, hn, DiscrWritten]
    | _ => rcases d with - | (i | i | i) <;> simp [discrOf, tryIndex, constFromLit, DiscrWritten]
  | some (.neg l, v) =>
    cases l with
    | int n =>
      by_cases hn : n < 2 ^ 63
      · rcases d with - | (i | i | i) <;> simp [discrOf, tryIndex, constFromLit, hn, DiscrWritten, eq_comm]
      · rcases d with - | (i | i | i) <;> simp [discrOf, tryIndex, constFromLit, hn, DiscrWritten]
    | _ => rcases d with - | (i | i | i) <;> simp [discrOf, tryIndex, constFromLit, DiscrWritten]

theorem Valid.mono {as bs : List Text} {attrs : List Attribute} (h : Valid as attrs) (hs : ∀ a ∈ as, a ∈ bs) : Valid bs attrs :=
  ⟨h.1, fun k hk => hs k (h.2 k hk)⟩

theorem flag_none {attrs : List Attribute} {k : Text} {b : Bool} (h : Flag attrs k b) (hk : k ∉ (pairs attrs).map (·.1)) : b = false := by
  rcases h with ⟨e, h, -⟩ | ⟨h, -⟩
  · exact absurd (by rcases h with h | ⟨h, -⟩ <;> exact List.mem_map.mpr ⟨_, h, rfl⟩) hk
  · exact h

theorem variantNewtype_iff (N : Names) (attrs : List Attribute) (a : Attrs) :
    (Valid [t! "tag", t! "label", t! "index", t! "unlabeled_fields", t! "unindexed_fields"] attrs ∧
      ∃ b, NewtypeWritten N attrs a b) ↔ UnitWritten N attrs a := by
  constructor
  · rintro ⟨h, b, h1, h2, h3, h4, -⟩
    refine ⟨⟨h.1, fun k hk => ?_⟩, h2, h3, h4⟩
    have := h.2 k hk
    have := h1.2 k hk
    simp only [List.mem_cons, List.not_mem_nil, or_false] at *
    rcases this with h | h | h | rfl
    · exact .inl h
    · exact .inr (.inl h)
    · exact .inr (.inr h)
    · rcases ‹_ ∨ _› with h | h | h | h | h <;> exact absurd h (by decide)
  · rintro ⟨h1, h2, h3, h4⟩
    refine ⟨h1.mono (by simp), false, h1.mono (by simp), h2, h3, h4, .inr ⟨rfl, fun e he => ?_⟩, by simp⟩
    have hk : t! "transparent" ∈ (pairs attrs).map (·.1) := by
      rcases he with h | ⟨h, -⟩ <;> exact List.mem_map.mpr ⟨_, h, rfl⟩
    exact absurd (h1.2 _ hk) (by decide)

theorem variantShape_iff (N : Names) (feature : Bool) (attrs : List Attribute) (fields : Fields) (a : Attrs) (s : Shape) :
    (Valid [t! "tag", t! "label", t! "index", t! "unlabeled_fields", t! "unindexed_fields"] attrs ∧
      variantShape N feature attrs fields = some (a, s)) ↔ ShapeWritten N feature attrs a fields s := by
  match fields with
  | .unit =>
    simp only [variantShape, bind_iff, unitAttrs_iff]
    constructor
    · rintro ⟨-, b, h, e⟩
      cases e
      exact h
    · intro h
      cases s <;> try exact h.elim
      exact ⟨h.1.mono (by simp), a, h, rfl⟩
  | .named xs =>
    simp only [variantShape, bind_iff, structAttrs_iff, structFields_iff]
    constructor
    · rintro ⟨-, b, h, fs, h', e⟩
      cases e
      exact ⟨h, h'⟩
    · intro h
      cases s <;> try exact h.elim
      exact ⟨h.1.1, a, h.1, _, h.2, rfl⟩
  | .unnamed [x] =>
    simp only [variantShape, bind_iff]
    constructor
    · rintro ⟨hv, ⟨b, t⟩, h, ⟨⟩, h', e⟩
      cases e
      exact ⟨⟨x, rfl, (ensureEmpty_iff x).mp h'⟩, (variantNewtype_iff N attrs _).mp ⟨hv, t, (newtypeAttrs_iff N attrs _ t).mp h⟩⟩
    · intro h
      cases s with
      | newtype =>
        obtain ⟨⟨y, hy, hp⟩, h⟩ := h
        cases hy
        obtain ⟨hv, t, h⟩ := (variantNewtype_iff N attrs a).mpr h
        exact ⟨hv, (a, t), (newtypeAttrs_iff N attrs a t).mpr h, (), (ensureEmpty_iff x).mpr hp, rfl⟩
      | unnamed fs => exact absurd rfl h.1
      | _ => exact h.elim
  | .unnamed [] =>
    simp only [variantShape, bind_iff, structAttrs_iff, structFields_iff]
    constructor
    · rintro ⟨-, b, h, fs, h', e⟩
      cases e
      exact ⟨by simp, h, h'⟩
    · intro h
      cases s with
      | newtype => obtain ⟨⟨y, hy, -⟩, -⟩ := h; cases hy
      | unnamed fs => exact ⟨h.2.1.1, a, h.2.1, _, h.2.2, rfl⟩
      | _ => exact h.elim
  | .unnamed (x :: y :: r) =>
    simp only [variantShape, bind_iff, structAttrs_iff, structFields_iff]
    constructor
    · rintro ⟨-, b, h, fs, h', e⟩
      cases e
      exact ⟨by simp, h, h'⟩
    · intro h
      cases s with
      | newtype => obtain ⟨⟨y, hy, -⟩, -⟩ := h; cases hy
      | unnamed fs => exact ⟨h.2.1.1, a, h.2.1, _, h.2.2, rfl⟩
      | _ => exact h.elim

theorem variantDef_iff (N : Names) (feature : Bool) (x : VariantItem) (v : Variant) :
    variantDef N feature x = some v ↔ VariantWritten N feature x v := by
  obtain ⟨i, s, a, d⟩ := v
  rw [variantDef, bind_unit_iff, check_iff _ (by decide), VariantWritten, ← variantShape_iff]
  simp only [bind_iff, discrOf_iff]
  constructor
  · rintro ⟨h1, d, h2, ⟨a, s⟩, h3, e⟩
    cases e
    exact ⟨rfl, h2, h1, h3⟩
  · rintro ⟨rfl, h2, h1, h3⟩
    exact ⟨h1, d, h2, (a, s), h3, rfl⟩

end Derive

/-! ## Theorems -/

/-- **C59**, exactly: which items `#[derive(Value)]` accepts, and what it makes of their attributes. -/
theorem C59_exact (N : Names) (feature : Bool) (x : Item') (d : Def) : derive N feature x = some d ↔ Written N feature x d := by
  obtain ⟨ident, attrs, data⟩ := x
  constructor
  · intro h0
    match data with
    | .union => cases h0
    | .struct .unit =>
      obtain ⟨a, h, e⟩ := (bind_iff _ _ _).mp h0
      cases e
      exact ⟨rfl, rfl, (unitAttrs_iff N attrs a).mp h⟩
    | .struct (.named xs) =>
      obtain ⟨a, h, e⟩ := (bind_iff _ _ _).mp h0
      obtain ⟨fs, h', e⟩ := (bind_iff _ _ _).mp e
      cases e
      exact ⟨xs, rfl, rfl, (structAttrs_iff N attrs a).mp h, (structFields_iff N feature a _ fs).mp h'⟩
    | .struct (.unnamed [x]) =>
      obtain ⟨⟨a, b⟩, h, e⟩ := (bind_iff _ _ _).mp h0
      obtain ⟨h', e⟩ := (bind_unit_iff _ _ _).mp e
      cases e
      exact ⟨x, rfl, (ensureEmpty_iff x).mp h', rfl, (newtypeAttrs_iff N attrs a b).mp h⟩
    | .struct (.unnamed []) =>
      obtain ⟨a, h, e⟩ := (bind_iff _ _ _).mp h0
      obtain ⟨fs, h', e⟩ := (bind_iff _ _ _).mp e
      cases e
      exact ⟨[], rfl, by simp, rfl, (structAttrs_iff N attrs a).mp h, (structFields_iff N feature a _ fs).mp h'⟩
    | .struct (.unnamed (x :: y :: r)) =>
      obtain ⟨a, h, e⟩ := (bind_iff _ _ _).mp h0
      obtain ⟨fs, h', e⟩ := (bind_iff _ _ _).mp e
      cases e
      exact ⟨_, rfl, by simp, rfl, (structAttrs_iff N attrs a).mp h, (structFields_iff N feature a _ fs).mp h'⟩
    | .enum [] =>
      obtain ⟨h, e⟩ := (bind_unit_iff _ _ _).mp h0
      cases e
      exact ⟨rfl, rfl, (ensureEmpty_iff attrs).mp h⟩
    | .enum (v :: vs) =>
      obtain ⟨b, h, e⟩ := (bind_iff _ _ _).mp h0
      obtain ⟨ws, h', e⟩ := (bind_iff _ _ _).mp e
      cases e
      exact ⟨_, rfl, by simp, (enumAttrs_iff N ident attrs b (enumAttrs_variants N ident attrs b h)).mp h,
        (each_iff (variantDef_iff N feature) _ _).mp ((mapM_iff _ _ _).mp h')⟩
  · intro h
    match d with
    | .unitStruct i a =>
      obtain ⟨rfl, rfl, h⟩ := h
      exact (bind_iff _ _ _).mpr ⟨a, (unitAttrs_iff N attrs a).mpr h, rfl⟩
    | .newtype i a b =>
      obtain ⟨y, rfl, h', rfl, h⟩ := h
      exact (bind_iff _ _ _).mpr ⟨(a, b), (newtypeAttrs_iff N attrs a b).mpr h,
        (bind_unit_iff _ _ _).mpr ⟨(ensureEmpty_iff y).mpr h', rfl⟩⟩
    | .struct true i a fs =>
      obtain ⟨ys, rfl, rfl, h, h'⟩ := h
      exact (bind_iff _ _ _).mpr ⟨a, (structAttrs_iff N attrs a).mpr h,
        (bind_iff _ _ _).mpr ⟨fs, (structFields_iff N feature a _ fs).mpr h', rfl⟩⟩
    | .struct false i a fs =>
      obtain ⟨ys, rfl, hl, rfl, h, h'⟩ := h
      match ys, hl with
      | [], _ =>
        exact (bind_iff _ _ _).mpr ⟨a, (structAttrs_iff N attrs a).mpr h,
          (bind_iff _ _ _).mpr ⟨fs, (structFields_iff N feature a _ fs).mpr h', rfl⟩⟩
      | _ :: _ :: _, _ =>
        exact (bind_iff _ _ _).mpr ⟨a, (structAttrs_iff N attrs a).mpr h,
          (bind_iff _ _ _).mpr ⟨fs, (structFields_iff N feature a _ fs).mpr h', rfl⟩⟩
    | .void i =>
      obtain ⟨rfl, rfl, h⟩ := h
      exact (bind_unit_iff _ _ _).mpr ⟨(ensureEmpty_iff attrs).mpr h, rfl⟩
    | .enum d =>
      obtain ⟨ys, rfl, hn, h, h'⟩ := h
      match ys, hn with
      | y :: ys, _ =>
        exact (bind_iff _ _ _).mpr ⟨{ d with variants := [] }, (enumAttrs_iff N ident attrs _ rfl).mpr h,
          (bind_iff _ _ _).mpr ⟨d.variants,
            (mapM_iff _ _ _).mpr ((each_iff (variantDef_iff N feature) _ _).mpr h'), rfl⟩⟩

/-! ### Order and grouping -/

/-- The same attributes, up to their order and how they are grouped. -/
def Derive.SameAttrs (a b : List Attribute) : Prop := (pairs a).Perm (pairs b)

def Derive.SameFields : Fields → Fields → Prop
  | .unit, .unit => True
  | .named xs, .named ys => Each (fun x y => x.1 = y.1 ∧ SameAttrs x.2 y.2) xs ys
  | .unnamed xs, .unnamed ys => Each SameAttrs xs ys
  | _, _ => False

def Derive.SameVariant (x y : VariantItem) : Prop :=
  x.ident = y.ident ∧ x.discr = y.discr ∧ SameAttrs x.attrs y.attrs ∧ SameFields x.fields y.fields

def Derive.SameData : Data → Data → Prop
  | .struct x, .struct y => SameFields x y
  | .enum xs, .enum ys => Each SameVariant xs ys
  | .union, .union => True
  | _, _ => False

/-- The same item, up to the order of attributes and how they are grouped. -/
def Derive.SameItem (x y : Item') : Prop := x.ident = y.ident ∧ SameAttrs x.attrs y.attrs ∧ SameData x.data y.data

namespace Derive

theorem Each.symm {α β : Type} {R : α → β → Prop} {S : β → α → Prop} (h : ∀ x y, R x y → S y x) :
    ∀ {xs : List α} {ys : List β}, Each R xs ys → Each S ys xs
  | [], [], _ => trivial
  | _ :: _, _ :: _, ⟨h1, h2⟩ => ⟨h _ _ h1, Each.symm h h2⟩
  | [], _ :: _, h => h.elim
  | _ :: _, [], h => h.elim

/-- Related elements of the left list. -/
theorem Each.trans {α β γ : Type} {Q : α → γ → Prop} {R : α → β → Prop} {S : γ → β → Prop} (h : ∀ x z y, Q x z → R x y → S z y) :
    ∀ {xs : List α} {zs : List γ} {ys : List β}, Each Q xs zs → Each R xs ys → Each S zs ys
  | [], [], [], _, _ => trivial
  | _ :: _, _ :: _, _ :: _, ⟨h1, h2⟩, ⟨h3, h4⟩ => ⟨h _ _ _ h1 h3, Each.trans h h2 h4⟩
  | [], _ :: _, _, h, _ => h.elim
  | _ :: _, [], _, h, _ => h.elim
  | [], _, _ :: _, _, h => h.elim
  | _ :: _, _, [], _, h => h.elim

theorem Each.length {α β : Type} {R : α → β → Prop} : ∀ {xs : List α} {ys : List β}, Each R xs ys → xs.length = ys.length
  | [], [], _ => rfl
  | _ :: _, _ :: _, ⟨_, h⟩ => congrArg (· + 1) (Each.length h)
  | [], _ :: _, h => h.elim
  | _ :: _, [], h => h.elim

section
variable {a b : List Attribute} (h : SameAttrs a b)
include h

theorem SameAttrs.gives (k : Text) (e : Expr) : Gives a k e ↔ Gives b k e := by
  rw [Gives, Gives, h.mem_iff, h.mem_iff]

theorem SameAttrs.valid (as : List Text) : Valid as a ↔ Valid as b := by
  have h' := h.map (·.1)
  rw [Valid, Valid, h'.nodup_iff]
  simp only [h'.mem_iff]

theorem SameAttrs.reads {α : Type} (R : Expr → α → Prop) (k : Text) (x : Option α) : Reads R a k x ↔ Reads R b k x := by
  cases x <;> simp only [Reads, h.gives]

theorem SameAttrs.flag (k : Text) (x : Bool) : Flag a k x ↔ Flag b k x := by
  rw [Flag, Flag, h.reads, h.reads]

theorem SameAttrs.common (N : Names) (x : Attrs) : Common N a x ↔ Common N b x := by
  rw [Common, Common, h.reads, h.reads, h.reads]

theorem SameAttrs.struct (N : Names) (x : Attrs) : StructWritten N a x ↔ StructWritten N b x := by
  rw [StructWritten, StructWritten, h.valid, h.common, h.flag, h.flag]

theorem SameAttrs.unit (N : Names) (x : Attrs) : UnitWritten N a x ↔ UnitWritten N b x := by
  rw [UnitWritten, UnitWritten, h.valid, h.common]

theorem SameAttrs.newtype (N : Names) (x : Attrs) (t : Bool) : NewtypeWritten N a x t ↔ NewtypeWritten N b x t := by
  rw [NewtypeWritten, NewtypeWritten, h.valid, h.common, h.flag]

theorem SameAttrs.enum (N : Names) (ident : Text) (d : EnumDef) : EnumWritten N ident a d ↔ EnumWritten N ident b d := by
  rw [EnumWritten, EnumWritten, h.valid, h.common, h.flag, h.flag, h.flag]

theorem SameAttrs.empty (h' : pairs a = []) : pairs b = [] := by
  rw [SameAttrs, h'] at h
  exact h.nil_eq.symm

theorem SameAttrs.field (N : Names) (feature : Bool) (at' : Attrs) (i : Option Text) (f : Field) :
    FieldWritten N feature at' (i, a) f ↔ FieldWritten N feature at' (i, b) f := by
  rw [FieldWritten, FieldWritten]
  simp only [h.valid, h.common, h.flag, h.reads, h.gives]

end

theorem FieldsWritten.same {N : Names} {feature : Bool} {at' : Attrs} {xs ys : List (Option Text × List Attribute)} {fs : List Field}
    (h : FieldsWritten N feature at' xs fs) (hs : Each (fun x y => x.1 = y.1 ∧ SameAttrs x.2 y.2) xs ys) :
    FieldsWritten N feature at' ys fs := by
  refine ⟨hs.trans ?_ h.1, h.2⟩
  rintro ⟨i, a⟩ ⟨j, b⟩ f ⟨rfl, h⟩ h'
  exact (h.field N feature at' i f).mp h'

theorem Each.map_map {α β γ δ : Type} {R : α → β → Prop} {S : γ → δ → Prop} (f : α → γ) (g : β → δ) (h : ∀ x y, R x y → S (f x) (g y)) :
    ∀ {xs : List α} {ys : List β}, Each R xs ys → Each S (xs.map f) (ys.map g)
  | [], [], _ => trivial
  | _ :: _, _ :: _, ⟨h1, h2⟩ => ⟨h _ _ h1, Each.map_map f g h h2⟩
  | [], _ :: _, h => h.elim
  | _ :: _, [], h => h.elim

theorem ShapeWritten.same {N : Names} {feature : Bool} {a b : List Attribute} {at' : Attrs} {x y : Fields} {s : Shape}
    (h : ShapeWritten N feature a at' x s) (ha : SameAttrs a b) (hf : SameFields x y) : ShapeWritten N feature b at' y s := by
  cases x <;> cases y <;> first | exact hf.elim | cases s <;> try exact h.elim
  · exact (ha.unit N at').mp h
  · exact ⟨(ha.struct N at').mp h.1, h.2.same (hf.map_map _ _ fun x y h => ⟨congrArg some h.1, h.2⟩)⟩
  · rename_i ys
    obtain ⟨⟨z, rfl, hz⟩, h⟩ := h
    match ys, hf with
    | [w], hf => exact ⟨⟨w, rfl, hf.1.empty hz⟩, (ha.unit N at').mp h⟩
  · exact ⟨by rw [← Each.length hf]; exact h.1, (ha.struct N at').mp h.2.1, h.2.2.same (hf.map_map _ _ fun x y h => ⟨rfl, h⟩)⟩

theorem Written.same {N : Names} {feature : Bool} {x y : Item'} {d : Def} (h : Written N feature x d) (hs : SameItem x y) :
    Written N feature y d := by
  obtain ⟨i, a, x⟩ := x
  obtain ⟨j, b, y⟩ := y
  obtain ⟨hi, ha, hd⟩ := hs
  simp only at hi ha hd
  subst hi
  match d with
  | .unitStruct i' a' =>
    obtain ⟨rfl, hi, h⟩ := h
    match y, hd with
    | .struct .unit, _ => exact ⟨rfl, hi, (ha.unit N a').mp h⟩
  | .newtype i' a' t =>
    obtain ⟨z, rfl, hz, hi, h⟩ := h
    match y, hd with
    | .struct (.unnamed [w]), hd => exact ⟨w, rfl, hd.1.empty hz, hi, (ha.newtype N a' t).mp h⟩
  | .struct true i' a' fs =>
    obtain ⟨z, rfl, hi, h, h'⟩ := h
    match y, hd with
    | .struct (.named ws), hd =>
      exact ⟨ws, rfl, hi, (ha.struct N a').mp h, h'.same (Each.map_map _ _ (fun x y h => ⟨congrArg some h.1, h.2⟩) hd)⟩
  | .struct false i' a' fs =>
    obtain ⟨z, rfl, hl, hi, h, h'⟩ := h
    match y, hd with
    | .struct (.unnamed ws), hd =>
      exact ⟨ws, rfl, by rw [← Each.length hd]; exact hl, hi, (ha.struct N a').mp h,
        h'.same (Each.map_map _ _ (fun x y h => ⟨rfl, h⟩) hd)⟩
  | .void i' =>
    obtain ⟨rfl, hi, h⟩ := h
    match y, hd with
    | .enum [], _ => exact ⟨rfl, hi, ha.empty h⟩
  | .enum d =>
    obtain ⟨z, rfl, hn, h, h'⟩ := h
    match y, hd with
    | .enum ws, hd =>
      refine ⟨ws, rfl, fun hw => hn ?_, (ha.enum N i d).mp h, Each.trans ?_ hd h'⟩
      · subst hw
        exact List.length_eq_zero_iff.mp (Each.length hd)
      · rintro ⟨i, a, x, d⟩ ⟨j, b, y, e⟩ v ⟨hi, hd, ha, hf⟩ ⟨h1, h2, h3⟩
        simp only at hi hd ha hf
        subst hi hd
        exact ⟨h1, h2, h3.same ha hf⟩

theorem SameItem.symm {x y : Item'} (h : SameItem x y) : SameItem y x := by
  have hA : ∀ a b, SameAttrs a b → SameAttrs b a := fun _ _ h => List.Perm.symm h
  have hF : ∀ f g, SameFields f g → SameFields g f := by
    intro f g h
    cases f <;> cases g <;> first | exact h.elim | skip
    · trivial
    · exact Each.symm (fun x y h => ⟨h.1.symm, hA _ _ h.2⟩) h
    · exact Each.symm hA h
  obtain ⟨i, a, x⟩ := x
  obtain ⟨j, b, y⟩ := y
  obtain ⟨hi, ha, hd⟩ := h
  refine ⟨hi.symm, hA _ _ ha, ?_⟩
  cases x <;> cases y <;> first | exact hd.elim | skip
  · exact hF _ _ hd
  · exact Each.symm (fun x y h => ⟨h.1.symm, h.2.1.symm, hA _ _ h.2.2.1, hF _ _ h.2.2.2⟩) hd
  · trivial

end Derive

/-- **C59**: it does not matter in which order attributes are given, nor how they are grouped, nor which other attributes
there are between them. -/
theorem C59_order (N : Names) (feature : Bool) (x y : Item') (h : SameItem x y) : derive N feature x = derive N feature y := by
  apply Option.ext
  intro d
  rw [C59_exact, C59_exact]
  exact ⟨fun h' => h'.same h, fun h' => h'.same h.symm⟩

/-! ### Effects

A value of a derived type streams `tree v` (C38). -/

namespace Derive

/-- The outermost tag, label and index. -/
def metaOf : V → Option Meta
  | .tag m | .tagged m _ | .enum m _ | .tuple m _ _ | .record m _ _ | .recordTuple m _ _ => some m
  | _ => none

/-- A label as it is written. -/
def asLabel : LabelVal → Label
  | .const s => .new s
  | .path l => l

/-- The label that is given, or else another one. -/
def LabelAs (N : Names) (attrs : List Attribute) (other : Option Label) (l : Option Label) : Prop :=
  (∃ e x, Gives attrs (t! "label") e ∧ IsLabel N e x ∧ l = some (asLabel x)) ∨
    (∀ e, ¬ Gives attrs (t! "label") e) ∧ l = other

/-- The index that is given, if any. -/
def IndexAs (N : Names) (attrs : List Attribute) (i : Option Index) : Prop :=
  (∃ e x, Gives attrs (t! "index") e ∧ IsIndex N e x ∧ i = some (attrIndex x)) ∨
    (∀ e, ¬ Gives attrs (t! "index") e) ∧ i = none

/-- The values of a derived type. -/
def ValueOf (v : RV) : Def → Prop
  | .unitStruct i a => v = .unitStruct i a
  | .newtype i a t => ∃ w, v = .newtype i a t w
  | .struct n i a fs => ∃ ws, v = .struct n i a fs ws
  | .void _ => False
  | .enum d => ∃ k ws, v = .enum d k ws

/-- There is none of these attributes. -/
def Bare (attrs : List Attribute) : Prop :=
  ∀ e, ¬ Gives attrs (t! "tag") e ∧ ¬ Gives attrs (t! "label") e ∧ ¬ Gives attrs (t! "index") e

theorem labelAs (N : Names) (attrs : List Attribute) (l : Option LabelVal) (ident : Text)
    (h : Reads (IsLabel N) attrs (t! "label") l) : LabelAs N attrs (some (identLabel ident)) (some (labelOr l ident)) := by
  match l, h with
  | some (.const s), ⟨e, h1, h2⟩ => exact .inl ⟨e, _, h1, h2, rfl⟩
  | some (.path s), ⟨e, h1, h2⟩ => exact .inl ⟨e, _, h1, h2, rfl⟩
  | none, h => exact .inr ⟨h, rfl⟩

theorem indexAs (N : Names) (attrs : List Attribute) (i : Option IndexVal) (h : Reads (IsIndex N) attrs (t! "index") i) :
    IndexAs N attrs (i.map attrIndex) := by
  match i, h with
  | some x, ⟨e, h1, h2⟩ => exact .inl ⟨e, x, h1, h2, rfl⟩
  | none, h => exact .inr ⟨h, rfl⟩

theorem bare (N : Names) (attrs : List Attribute) (a : Attrs) (h : Common N attrs a) (ht : a.tag = none) (hl : a.label = none)
    (hi : a.index = none) : Bare attrs := by
  obtain ⟨h1, h2, h3⟩ := h
  rw [ht] at h1
  rw [hl] at h2
  rw [hi] at h3
  exact fun e => ⟨h1 e, h2 e, h3 e⟩

theorem metaOf_struct (named : Bool) (a : Attrs) (m : Meta) (fs : List Field) (vs : List V) :
    metaOf (structTree named a m fs vs) = some m := by
  dsimp only [structTree]
  cases labeled named a (rows fs vs) <;> cases indexed a (rows fs vs) <;> rfl

end Derive

/-- **C59**: the tag, label and index of a type are those that are given; by default there is the name of the type for a
label, and no tag and no index. Where there is nothing to have them, none can be given. -/
theorem C59_type (N : Names) (feature : Bool) (x : Item') (d : Def) (h : derive N feature x = some d) (v : RV)
    (hv : ValueOf v d) (hok : ok v) :
    (Flag x.attrs (t! "transparent") true ∨ Flag x.attrs (t! "dynamic") true) ∧ Bare x.attrs ∨
      ∃ m, metaOf (tree v) = some m ∧ Reads (IsTag N) x.attrs (t! "tag") m.tag ∧
        LabelAs N x.attrs (some (identLabel x.ident)) m.label ∧ IndexAs N x.attrs m.index := by
  rw [C59_exact] at h
  match d, hv with
  | .unitStruct i a, hv =>
    obtain ⟨-, rfl, -, ⟨h1, h2, h3⟩, -⟩ := h
    subst hv
    exact .inr ⟨_, rfl, h1, labelAs N _ _ _ h2, indexAs N _ _ h3⟩
  | .newtype i a t, ⟨w, hv⟩ =>
    obtain ⟨y, -, -, rfl, -, hc, -, -, ht, hb⟩ := h
    subst hv
    cases t with
    | false => exact .inr ⟨_, rfl, hc.1, labelAs N _ _ _ hc.2.1, indexAs N _ _ hc.2.2⟩
    | true => exact .inl ⟨.inl ht, bare N _ a hc (hb rfl).1 (hb rfl).2.1 (hb rfl).2.2⟩
  | .struct true i a fs, ⟨ws, hv⟩ =>
    obtain ⟨ys, -, rfl, ⟨-, ⟨h1, h2, h3⟩, -⟩, -⟩ := h
    subst hv
    exact .inr ⟨_, metaOf_struct _ _ _ _ _, h1, labelAs N _ _ _ h2, indexAs N _ _ h3⟩
  | .struct false i a fs, ⟨ws, hv⟩ =>
    obtain ⟨ys, -, -, rfl, ⟨-, ⟨h1, h2, h3⟩, -⟩, -⟩ := h
    subst hv
    exact .inr ⟨_, metaOf_struct _ _ _ _ _, h1, labelAs N _ _ _ h2, indexAs N _ _ h3⟩
  | .enum d, ⟨k, ws, hv⟩ =>
    obtain ⟨ys, -, -, ⟨-, hc, hi, -, -, hd, hb⟩, -⟩ := h
    subst hv
    obtain ⟨⟨w, hw, -⟩, -⟩ := hok
    cases hdyn : d.dyn with
    | false =>
      refine .inr ⟨_, by simp only [tree, hw, hdyn]; rfl, hc.1, ?_, indexAs N _ _ hc.2.2⟩
      rw [← hi]
      exact labelAs N _ _ _ hc.2.1
    | true =>
      rw [hdyn] at hd
      exact .inl ⟨.inr hd, bare N _ _ hc (hb hdyn).1 (hb hdyn).2.1 (hb hdyn).2.2.1⟩

namespace Derive

/-- The variant in an enum. -/
def variantOf : V → V
  | .enum _ v => v
  | v => v

theorem Each.get {α β : Type} {R : α → β → Prop} : ∀ {xs : List α} {ys : List β}, Each R xs ys → ∀ {k : Nat} {x : α} {y : β},
    xs[k]? = some x → ys[k]? = some y → R x y
  | [], [], _, _, _, _, h, _ => by simp at h
  | _ :: _, _ :: _, ⟨h, _⟩, 0, _, _, h1, h2 => by
    simp only [List.getElem?_cons_zero, Option.some.injEq] at h1 h2
    subst h1 h2
    exact h
  | _ :: _, _ :: _, ⟨_, h⟩, k + 1, _, _, h1, h2 => Each.get h (by simpa using h1) (by simpa using h2)
  | [], _ :: _, h, _, _, _, _, _ => h.elim
  | _ :: _, [], h, _, _, _, _, _ => h.elim

theorem variantIndexes_given (is : List Index) (vs : List Variant) (k : Nat) (v : Variant) (h : vs[k]? = some v)
    (i : IndexVal) (hi : v.attrs.index = some i) : (variantIndexes.go is vs)[k]? = some (some (attrIndex i)) := by
  induction vs generalizing is k with
  | nil => simp at h
  | cons w vs ih =>
    cases k with
    | zero =>
      simp only [List.getElem?_cons_zero, Option.some.injEq] at h
      subst h
      rw [variantIndexes.go, hi]
      cases i <;> rfl
    | succ k =>
      have h' : vs[k]? = some v := by simpa using h
      rw [variantIndexes.go]
      split <;> exact ih _ k h'

/-- The attributes of variants. -/
theorem VariantWritten.common {N : Names} {feature : Bool} {y : VariantItem} {v : Variant} (h : VariantWritten N feature y v) :
    Common N y.attrs v.attrs := by
  obtain ⟨-, -, h⟩ := h
  cases hf : y.fields <;> cases hs : v.shape <;> rw [hf, hs] at h <;> first | exact h.elim | skip
  · exact h.2.1
  · exact h.1.2.1
  · exact h.2.2.1
  · exact h.2.1.2.1

end Derive

/-- **C59**, for the variants of enums that are not dynamic and have labels: the tag, label and index are those that are
given; by default there is the name of the variant for a label, and no tag (and see C39 for indexes). Missing are labels
with `unlabeled_variants`, where they are dropped (`C59_fails_unlabeled`), and dynamic enums (`C59_fails_dynamic`). -/
theorem C59_variant_partial (N : Names) (feature : Bool) (x : Item') (ys : List VariantItem) (hx : x.data = .enum ys) (d : EnumDef)
    (h : derive N feature x = some (.enum d)) (hd : ¬ Flag x.attrs (t! "dynamic") true) (k : Nat) (y : VariantItem)
    (hy : ys[k]? = some y) (ws : List RV) (hok : ok (.enum d k ws)) :
    ∃ m, metaOf (variantOf (tree (.enum d k ws))) = some m ∧ Reads (IsTag N) y.attrs (t! "tag") m.tag ∧
      (¬ Flag x.attrs (t! "unlabeled_variants") true → LabelAs N y.attrs (some (identLabel y.ident)) m.label) ∧
      (Flag x.attrs (t! "unlabeled_variants") true → m.label = none) ∧
      ((∃ e, Gives y.attrs (t! "index") e) → IndexAs N y.attrs m.index) := by
  rw [C59_exact] at h
  obtain ⟨ys', hx', -, ⟨hval, -, -, hul, -, hdy, -⟩, he⟩ := h
  rw [hx] at hx'
  cases hx'
  obtain ⟨⟨v, hv, hvk⟩, -⟩ := hok
  have hvw := he.get hy hv
  have hc := hvw.common
  have hdyn : d.dyn = false := by
    cases hdyn : d.dyn with
    | false => rfl
    | true => rw [hdyn] at hdy; exact absurd hdy hd
  have huniq : ∀ b, Flag x.attrs (t! "unlabeled_variants") b → b = d.unlabeledVariants := by
    intro b hb
    have h1 := (getBool_iff x.attrs hval.1 (t! "unlabeled_variants") b).mpr hb
    have h2 := (getBool_iff x.attrs hval.1 (t! "unlabeled_variants") _).mpr hul
    rw [h1] at h2
    exact Option.some.inj h2
  let m : Meta := { tag := v.attrs.tag, label := variantName d v, index := (variantIndexes d d.variants)[k]?.getD none }
  have hm : metaOf (variantOf (tree (.enum d k ws))) = some m := by
    simp only [tree, hv, hdyn, Bool.false_eq_true, if_false, variantOf]
    dsimp only [variantTree]
    rw [okVariant] at hvk
    cases hs : v.shape with
    | unit => rfl
    | newtype =>
      rw [hs] at hvk
      match ws, hvk with
      | [w], _ => simp [trees, metaOf, hdyn, m]
    | named fs => exact metaOf_struct _ _ _ _ _
    | unnamed fs => exact metaOf_struct _ _ _ _ _
  refine ⟨m, hm, hc.1, fun hn => ?_, fun hn => ?_, fun ⟨e, he⟩ => ?_⟩
  · have : d.unlabeledVariants = false := by
      cases hu : d.unlabeledVariants with
      | false => rfl
      | true => rw [hu] at hul; exact absurd hul hn
    have hl : variantName d v = some (labelOr v.attrs.label v.ident) := by simp [variantName, this, hdyn]
    simp only [m, hl, hvw.1]
    exact labelAs N _ _ _ hc.2.1
  · have := huniq true hn
    simp [m, variantName, ← this]
  · have hix := hc.2.2
    cases hi : v.attrs.index with
    | none => rw [hi] at hix; exact absurd he (hix e)
    | some i =>
      rw [hi] at hix
      obtain ⟨e', h1, h2⟩ := hix
      exact .inl ⟨e', i, h1, h2, by simp only [m, variantIndexes, variantIndexes_given _ _ k v hv i hi]; rfl⟩

namespace Derive

/-- The fields of a value: their tags, labels, indexes and values. -/
def fieldsOf : V → List (Option Tag × Option Label × Option Index × V)
  | .recordTuple _ _ fs => fs.map fun f => (f.1, some f.2.1, some f.2.2.1, f.2.2.2)
  | .tuple _ _ fs => fs.map fun f => (f.1, none, some f.2.1, f.2.2)
  | .record _ _ fs => fs.map fun f => (f.1, some f.2.1, none, f.2.2)
  | .tagged _ (.seq _ xs) => xs.map fun x => (none, none, none, x)
  | _ => []

/-- Is a field skipped? -/
def skipped (attrs : List Attribute) : Bool :=
  (pairs attrs).any fun p => decide (p = (t! "skip", none) ∨ p = (t! "skip", some (.lit (.bool true))))

/-- The value of a field, in its `data_tag` if there is one. -/
def DataAs (N : Names) (attrs : List Attribute) (v w : V) : Prop :=
  (∃ e t, Gives attrs (t! "data_tag") e ∧ IsTag N e t ∧ w = .tagged { tag := some t } v) ∨
    (∀ e, ¬ Gives attrs (t! "data_tag") e) ∧ w = v

/-- What is streamed for a field of a struct with these attributes. Only what has a label or an index can have a tag. -/
def FieldAs (N : Names) (unlabeled unindexed : Prop) (x : (Option Text × List Attribute) × V)
    (r : Option Tag × Option Label × Option Index × V) : Prop :=
  (r.2.1.isSome = true ∨ r.2.2.1.isSome = true → Reads (IsTag N) x.1.2 (t! "tag") r.1) ∧ (unlabeled → r.2.1 = none) ∧
    (¬ unlabeled → LabelAs N x.1.2 (x.1.1.map identLabel) r.2.1) ∧ (unindexed → r.2.2.1 = none) ∧
    (¬ unindexed → r.2.2.1.isSome = true ∧ ((∃ e, Gives x.1.2 (t! "index") e) → IndexAs N x.1.2 r.2.2.1)) ∧
    DataAs N x.1.2 x.2 r.2.2.2

theorem flag_unique {attrs : List Attribute} (hn : ((pairs attrs).map (·.1)).Nodup) {k : Text} {b c : Bool} (hb : Flag attrs k b)
    (hc : Flag attrs k c) : b = c := by
  have h1 := (getBool_iff attrs hn k b).mpr hb
  have h2 := (getBool_iff attrs hn k c).mpr hc
  rw [h1] at h2
  exact Option.some.inj h2

theorem skipped_eq {attrs : List Attribute} (hn : ((pairs attrs).map (·.1)).Nodup) {b : Bool} (hb : Flag attrs (t! "skip") b) :
    skipped attrs = b := by
  have h : skipped attrs = true ↔ Flag attrs (t! "skip") true := by
    rw [skipped, List.any_eq_true]
    constructor
    · rintro ⟨p, hp, h⟩
      rcases of_decide_eq_true h with rfl | rfl
      · exact .inl ⟨_, .inr ⟨hp, rfl⟩, rfl⟩
      · exact .inl ⟨_, .inl hp, rfl⟩
    · rintro (⟨e, h, he⟩ | ⟨h, -⟩)
      · cases he
        rcases h with h | ⟨h, -⟩
        · exact ⟨_, h, by simp⟩
        · exact ⟨_, h, by simp⟩
      · cases h
  cases hs : skipped attrs with
  | true => exact flag_unique hn (h.mp hs) hb
  | false =>
    cases b with
    | false => rfl
    | true => rw [h.mpr hb] at hs; cases hs

/-- The fields that are streamed, as they are written. -/
theorem rows_each (N : Names) (feature : Bool) (a : Attrs) : ∀ (xs : List (Option Text × List Attribute)) (fs : List Field)
    (vs : List V), Each (FieldWritten N feature a) xs fs → fs.length = vs.length →
    Each (fun x (r : Field × V) => FieldWritten N feature a x.1 r.1 ∧ r.1.skip = false ∧ x.2 = r.2)
      ((xs.zip vs).filter fun r => !skipped r.1.2) (rows fs vs)
  | [], [], _, _, _ => by simp [rows, Each]
  | x :: xs, f :: fs, v :: vs, ⟨h, hs⟩, hl => by
    have ih := rows_each N feature a xs fs vs hs (by simpa using hl)
    have hk := skipped_eq h.1.1 h.2.2.1
    rw [rows] at ih ⊢
    simp only [List.zip_cons_cons, List.filter_cons, hk]
    cases hf : f.skip with
    | true => simpa using ih
    | false => exact ⟨⟨h, hf, rfl⟩, ih⟩
  | [], _ :: _, _, h, _ => h.elim
  | _ :: _, [], _, h, _ => h.elim
  | _ :: _, _ :: _, [], _, h => by simp at h

theorem each_indexes (rs : List (Option IndexVal)) (i : Int) (g : Bool) :
    Each (fun r x => ∀ y, r = some y → x = attrIndex y) rs (indexes i g rs) := by
  induction rs generalizing i g with
  | nil => trivial
  | cons r rs ih =>
    match r with
    | none => exact ⟨by simp, ih _ _⟩
    | some (.const k) => exact ⟨by rintro y ⟨⟩; rfl, ih _ _⟩
    | some (.path k) => exact ⟨by rintro y ⟨⟩; rfl, ih _ _⟩

theorem Each.of_map {α β γ : Type} {R : β → γ → Prop} (f : α → β) : ∀ {xs : List α} {ys : List γ}, Each R (xs.map f) ys →
    Each (fun x y => R (f x) y) xs ys
  | [], [], _ => trivial
  | _ :: _, _ :: _, ⟨h1, h2⟩ => ⟨h1, Each.of_map f h2⟩
  | [], _ :: _, h => h.elim
  | _ :: _, [], h => h.elim

theorem Each.zip {α β γ δ : Type} {P : α → β → Prop} {Q : β → γ → Prop} {R : α → δ → Prop} (f : β × γ → δ)
    (h : ∀ x y z, P x y → Q y z → R x (f (y, z))) :
    ∀ {xs : List α} {ys : List β} {zs : List γ}, Each P xs ys → Each Q ys zs → Each R xs ((ys.zip zs).map f)
  | [], [], [], _, _ => trivial
  | _ :: _, _ :: _, _ :: _, ⟨h1, h2⟩, ⟨h3, h4⟩ => ⟨h _ _ _ h1 h3, Each.zip f h h2 h4⟩
  | [], _ :: _, _, h, _ => h.elim
  | _ :: _, [], _, h, _ => h.elim
  | _, [], _ :: _, _, h => h.elim
  | _, _ :: _, [], _, h => h.elim

theorem Each.map_right {α β γ : Type} {P : α → β → Prop} {R : α → γ → Prop} (f : β → γ) (h : ∀ x y, P x y → R x (f y)) :
    ∀ {xs : List α} {ys : List β}, Each P xs ys → Each R xs (ys.map f)
  | [], [], _ => trivial
  | _ :: _, _ :: _, ⟨h1, h2⟩ => ⟨h _ _ h1, Each.map_right f h h2⟩
  | [], _ :: _, h => h.elim
  | _ :: _, [], h => h.elim

/-- And a property of the elements on the right. -/
theorem Each.and_right {α β : Type} {P : α → β → Prop} {Q : β → Prop} : ∀ {xs : List α} {ys : List β}, Each P xs ys →
    (∀ y ∈ ys, Q y) → Each (fun x y => P x y ∧ Q y) xs ys
  | [], [], _, _ => trivial
  | _ :: _, _ :: _, ⟨h1, h2⟩, h => ⟨⟨h1, h _ (by simp)⟩, Each.and_right h2 fun y hy => h y (by simp [hy])⟩
  | [], _ :: _, h, _ => h.elim
  | _ :: _, [], h, _ => h.elim

theorem dataAs (N : Names) (attrs : List Attribute) (f : Field) (v : V) (h : Reads (IsTag N) attrs (t! "data_tag") f.dataTag) :
    DataAs N attrs v (data f v) := by
  rw [data]
  cases hf : f.dataTag with
  | none => rw [hf] at h; exact .inr ⟨h, rfl⟩
  | some t =>
    rw [hf] at h
    obtain ⟨e, h1, h2⟩ := h
    exact .inl ⟨e, t, h1, h2, rfl⟩

theorem nameOf_as (N : Names) (x : Option Text × List Attribute) (f : Field) (hi : f.ident = x.1)
    (h : Reads (IsLabel N) x.2 (t! "label") f.label) : LabelAs N x.2 (x.1.map identLabel) (nameOf f) := by
  rw [nameOf, hi]
  match hf : f.label with
  | none => rw [hf] at h; exact .inr ⟨h, rfl⟩
  | some (.const s) =>
    rw [hf] at h
    obtain ⟨e, h1, h2⟩ := h
    exact .inl ⟨e, _, h1, h2, rfl⟩
  | some (.path s) =>
    rw [hf] at h
    obtain ⟨e, h1, h2⟩ := h
    exact .inl ⟨e, _, h1, h2, rfl⟩

theorem indexAs_given (N : Names) (attrs : List Attribute) (i : Option IndexVal) (h : Reads (IsIndex N) attrs (t! "index") i)
    (j : Index) (hj : ∀ y, i = some y → j = attrIndex y) (hg : ∃ e, Gives attrs (t! "index") e) : IndexAs N attrs (some j) := by
  match i, h with
  | some x, ⟨e, h1, h2⟩ => exact .inl ⟨e, x, h1, h2, by rw [hj x rfl]⟩
  | none, h => exact absurd hg.choose_spec (h _)

theorem some_name {f : Field} (h : (nameOf f).isSome = true) : nameOf f = some (name f) := by
  rw [name]
  cases h' : nameOf f with
  | none => rw [h'] at h; cases h
  | some l => rfl

theorem none_name {f : Field} (h : (nameOf f).isSome = false) : nameOf f = none := by
  cases h' : nameOf f with
  | none => rfl
  | some l => rw [h'] at h; cases h

/-- The fields of a struct, or of a variant. -/
theorem fields_as (N : Names) (feature named : Bool) (a : Attrs) (m : Meta)
    (xs : List (Option Text × List Attribute)) (fs : List Field) (h : FieldsWritten N feature a xs fs) (vs : List V)
    (hl : fs.length = vs.length) :
    Each (FieldAs N (a.unlabeled = true) (a.unindexed = true)) ((xs.zip vs).filter fun r => !skipped r.1.2)
      (fieldsOf (structTree named a m fs vs)) := by
  have hr := rows_each N feature a xs fs vs h.1 hl
  have hsub : ∀ r ∈ rows fs vs, r.1 ∈ fs ∧ r.1.skip = false := by
    intro r hr
    rw [rows, List.mem_filter] at hr
    exact ⟨(List.of_mem_zip hr.1).1, by simpa using hr.2⟩
  have hix : Each (fun (r : Field × V) x => ∀ y, r.1.index = some y → x = attrIndex y) (rows fs vs)
      (indexes 0 false ((rows fs vs).map (·.1.index))) := Each.of_map _ (each_indexes _ _ _)
  have hlab : a.unlabeled = true ∨ (∀ r ∈ rows fs vs, (nameOf r.1).isSome = true) ∨ ∀ r ∈ rows fs vs, nameOf r.1 = none := by
    rcases h.2 with h | h | h
    · exact .inl h
    · exact .inr (.inl fun r hr => h _ (hsub r hr).1 (hsub r hr).2)
    · exact .inr (.inr fun r hr => h _ (hsub r hr).1 (hsub r hr).2)
  generalize hrs : rows fs vs = rs at *
  dsimp only [structTree]
  rw [hrs]
  match rs with
  | [] =>
    have hA : ((xs.zip vs).filter fun r => !skipped r.1.2) = [] := by
      revert hr
      generalize ((xs.zip vs).filter fun r => !skipped r.1.2) = A
      cases A with
      | nil => exact fun _ => rfl
      | cons x A => exact fun h => h.elim
    rw [hA]
    cases labeled named a ([] : List (Field × V)) <;> cases indexed a ([] : List (Field × V)) <;> trivial
  | r :: rs =>
    have h1 : indexed a (r :: rs) = !a.unindexed := rfl
    have h2 : labeled named a (r :: rs) = (!a.unlabeled && (nameOf r.1).isSome) := rfl
    rw [h1, h2]
    have hlab' : ∀ p ∈ r :: rs, a.unlabeled = false → (nameOf p.1).isSome = (nameOf r.1).isSome := by
      intro p hp hu
      rcases hlab with h | h | h
      · rw [hu] at h; cases h
      · rw [h p hp, h r (by simp)]
      · rw [h p hp, h r (by simp)]
    have hr' := hr.and_right hlab'
    cases hu : a.unlabeled <;> cases hv : a.unindexed <;> simp only [hu, forall_const] at hr'
    · cases hs : (nameOf r.1).isSome with
      | true =>
        simp only [hs] at hr'
        change Each _ _ (List.map _ (List.map _ (List.zip _ _)))
        rw [List.map_map]
        refine Each.zip _ (fun x r i hp hq => ?_) hr' hix
        obtain ⟨⟨hw, hk, hx⟩, hn⟩ := hp
        obtain ⟨hc, hd, -⟩ := hw.2.2.2.2 hk
        refine ⟨fun _ => hc.1, by simp, fun _ => ?_, by simp, fun _ => ⟨rfl, indexAs_given N _ _ hc.2.2 _ hq⟩, ?_⟩
        · show LabelAs _ _ _ (some (name r.1))
          exact some_name hn ▸ nameOf_as N x.1 r.1 hw.2.1 hc.2.1
        · exact hx ▸ dataAs N _ _ _ hd
      | false =>
        simp only [hs] at hr'
        change Each _ _ (List.map _ (List.map _ (List.zip _ _)))
        rw [List.map_map]
        refine Each.zip _ (fun x r i hp hq => ?_) hr' hix
        obtain ⟨⟨hw, hk, hx⟩, hn⟩ := hp
        obtain ⟨hc, hd, -⟩ := hw.2.2.2.2 hk
        refine ⟨fun _ => hc.1, by simp, fun _ => ?_, by simp, fun _ => ⟨rfl, indexAs_given N _ _ hc.2.2 _ hq⟩, ?_⟩
        · exact none_name hn ▸ nameOf_as N x.1 r.1 hw.2.1 hc.2.1
        · exact hx ▸ dataAs N _ _ _ hd
    · cases hs : (nameOf r.1).isSome with
      | true =>
        simp only [hs] at hr'
        change Each _ _ (List.map _ (List.map _ _))
        rw [List.map_map]
        refine Each.map_right _ (fun x r hp => ?_) hr'
        obtain ⟨⟨hw, hk, hx⟩, hn⟩ := hp
        obtain ⟨hc, hd, -⟩ := hw.2.2.2.2 hk
        refine ⟨fun _ => hc.1, by simp, fun _ => ?_, by simp, by simp, ?_⟩
        · show LabelAs _ _ _ (some (name r.1))
          exact some_name hn ▸ nameOf_as N x.1 r.1 hw.2.1 hc.2.1
        · exact hx ▸ dataAs N _ _ _ hd
      | false =>
        simp only [hs] at hr'
        change Each _ _ (List.map _ (List.map _ _))
        rw [List.map_map]
        refine Each.map_right _ (fun x r hp => ?_) hr'
        obtain ⟨⟨hw, hk, hx⟩, hn⟩ := hp
        obtain ⟨hc, hd, -⟩ := hw.2.2.2.2 hk
        refine ⟨by simp, by simp, fun _ => ?_, by simp, by simp, ?_⟩
        · exact none_name hn ▸ nameOf_as N x.1 r.1 hw.2.1 hc.2.1
        · exact hx ▸ dataAs N _ _ _ hd
    · change Each _ _ (List.map _ (List.map _ (List.zip _ _)))
      rw [List.map_map]
      refine Each.zip _ (fun x r i hp hq => ?_) hr hix
      obtain ⟨hw, hk, hx⟩ := hp
      obtain ⟨hc, hd, -⟩ := hw.2.2.2.2 hk
      refine ⟨fun _ => hc.1, by simp, by simp, by simp, fun _ => ⟨rfl, indexAs_given N _ _ hc.2.2 _ hq⟩, ?_⟩
      exact hx ▸ dataAs N _ _ _ hd
    · change Each _ _ (List.map _ (List.map _ _))
      rw [List.map_map]
      refine Each.map_right _ (fun x r hp => ?_) hr
      obtain ⟨hw, hk, hx⟩ := hp
      obtain ⟨hc, hd, -⟩ := hw.2.2.2.2 hk
      refine ⟨by simp, by simp, by simp, by simp, by simp, ?_⟩
      exact hx ▸ dataAs N _ _ _ hd

end Derive

/-- The fields of an item. -/
def Derive.fieldsIn : Fields → List (Option Text × List Attribute)
  | .unit => []
  | .named ys => ys.map fun y => (some y.1, y.2)
  | .unnamed ys => ys.map fun y => (none, y)

/-- **C59**, for the fields of structs that are not flattened: those that are not skipped are streamed, in order, with the
labels and indexes that are given, in the `data_tag`s that are given; where there is something to have it, they have the
`tag` that is given. Missing are flattened fields (`C59_fails_flatten`), and tags where fields have neither a label nor an
index (`C59_fails_tag`). -/
theorem C59_fields_partial (N : Names) (feature : Bool) (x : Item') (ys : Fields) (hx : x.data = .struct ys) (named : Bool)
    (ident : Text) (a : Attrs) (fs : List Field) (h : derive N feature x = some (.struct named ident a fs)) (vs : List RV)
    (hok : ok (.struct named ident a fs vs)) :
    Each (FieldAs N (Flag x.attrs (t! "unlabeled_fields") true) (Flag x.attrs (t! "unindexed_fields") true))
      (((fieldsIn ys).zip (trees vs)).filter fun r => !skipped r.1.2) (fieldsOf (tree (.struct named ident a fs vs))) := by
  rw [C59_exact] at h
  have hflag : ∀ k b, ((pairs x.attrs).map (·.1)).Nodup → Flag x.attrs k b → (Flag x.attrs k true ↔ b = true) := by
    intro k b hn hb
    exact ⟨fun h => (flag_unique hn h hb).symm, fun h => h ▸ hb⟩
  have hl : fs.length = (trees vs).length := by rw [trees_eq, List.length_map]; exact hok.1.2.2
  cases named with
  | true =>
    obtain ⟨zs, hz, -, ⟨hv, -, h1, h2⟩, h'⟩ := h
    rw [hx] at hz
    cases hz
    rw [propext (hflag _ _ hv.1 h1), propext (hflag _ _ hv.1 h2)]
    exact fields_as N feature true a _ _ fs h' _ hl
  | false =>
    obtain ⟨zs, hz, -, -, ⟨hv, -, h1, h2⟩, h'⟩ := h
    rw [hx] at hz
    cases hz
    rw [propext (hflag _ _ hv.1 h1), propext (hflag _ _ hv.1 h2)]
    exact fields_as N feature false a _ _ fs h' _ hl

/-- And for those of variants with fields. -/
theorem C59_variant_fields_partial (N : Names) (feature : Bool) (x : Item') (ys : List VariantItem) (hx : x.data = .enum ys)
    (d : EnumDef) (h : derive N feature x = some (.enum d)) (k : Nat) (y : VariantItem) (hy : ys[k]? = some y) (v : Variant)
    (hv : d.variants[k]? = some v) (hs : v.shape ≠ .newtype) (vs : List RV) (hok : ok (.enum d k vs)) :
    Each (FieldAs N (Flag y.attrs (t! "unlabeled_fields") true) (Flag y.attrs (t! "unindexed_fields") true))
      (((fieldsIn y.fields).zip (trees vs)).filter fun r => !skipped r.1.2)
      (fieldsOf (variantOf (tree (.enum d k vs)))) := by
  rw [C59_exact] at h
  obtain ⟨ys', hx', -, -, he⟩ := h
  rw [hx] at hx'
  cases hx'
  obtain ⟨⟨v', hv', hok⟩, -⟩ := hok
  rw [hv] at hv'
  cases hv'
  obtain ⟨-, -, hw⟩ := he.get hy hv
  have hflag : ∀ k b, ((pairs y.attrs).map (·.1)).Nodup → Flag y.attrs k b → (Flag y.attrs k true ↔ b = true) := by
    intro k b hn hb
    exact ⟨fun h => (flag_unique hn h hb).symm, fun h => h ▸ hb⟩
  have hvar : variantOf (tree (.enum d k vs)) = variantOf (variantTree d v ((variantIndexes d d.variants)[k]?.getD none) (trees vs)) := by
    simp only [tree, hv]
    have hstr : ∀ named at' m fs ts, variantOf (structTree named at' m fs ts) = structTree named at' m fs ts := by
      intro named at' m fs ts
      dsimp only [structTree]
      cases labeled named at' (rows fs ts) <;> cases indexed at' (rows fs ts) <;> rfl
    cases d.dyn with
    | true => rfl
    | false =>
      show variantTree _ _ _ _ = _
      dsimp only [variantTree]
      cases hs' : v.shape with
      | unit => rfl
      | newtype => exact absurd hs' hs
      | named fs => exact (hstr _ _ _ _ _).symm
      | unnamed fs => exact (hstr _ _ _ _ _).symm
  have hstr : ∀ named at' m fs ts, variantOf (structTree named at' m fs ts) = structTree named at' m fs ts := by
    intro named at' m fs ts
    dsimp only [structTree]
    cases labeled named at' (rows fs ts) <;> cases indexed at' (rows fs ts) <;> rfl
  rw [hvar]
  dsimp only [variantTree]
  rw [okVariant] at hok
  cases hs' : v.shape <;> cases hf : y.fields <;> rw [hs', hf] at hw <;> rw [hs'] at hok <;> first | exact hw.elim | skip
  · simp [fieldsIn, variantOf, fieldsOf, Each]
  · exact absurd hs' hs
  · obtain ⟨⟨hval, -, h1, h2⟩, h'⟩ := hw
    rw [propext (hflag _ _ hval.1 h1), propext (hflag _ _ hval.1 h2), hstr]
    exact fields_as N feature true _ _ _ _ h' _ (by rw [trees_eq, List.length_map]; exact hok.2.2)
  · obtain ⟨-, ⟨hval, -, h1, h2⟩, h'⟩ := hw
    rw [propext (hflag _ _ hval.1 h1), propext (hflag _ _ hval.1 h2), hstr]
    exact fields_as N feature false _ _ _ _ h' _ (by rw [trees_eq, List.length_map]; exact hok.2.2)

/-! ### Attributes without effect -/

/-- `#[sval(...)]` -/
def Derive.sval (items : List (Text × Option Expr)) : List Attribute := [⟨t! "sval", items⟩]

/-- `#[sval(unlabeled_variants)] enum E { #[sval(..)] A }` -/
def unlabeledItem (as : List (Text × Option Expr)) : Item' where
  ident := t! "E"
  attrs := sval [(t! "unlabeled_variants", none)]
  data := .enum [⟨t! "A", sval as, .unit, none⟩]

/-- What it derives. -/
def unlabeledDef (a : Attrs) : EnumDef where
  ident := t! "E"
  unlabeledVariants := true
  variants := [{ ident := t! "A", shape := .unit, attrs := a }]

/-- **C59** fails: a label of a variant is dropped with `unlabeled_variants`. (With `unlabeled_fields`, a field with a label
does not compile: `C59_exact`.) -/
theorem C59_fails_unlabeled (N : Names) (feature : Bool) :
    derive N feature (unlabeledItem [(t! "label", some (.lit (.str (t! "x"))))]) =
        some (.enum (unlabeledDef { label := some (.const (t! "x")) })) ∧
      derive N feature (unlabeledItem []) = some (.enum (unlabeledDef {})) ∧
      tree (.enum (unlabeledDef { label := some (.const (t! "x")) }) 0 []) = tree (.enum (unlabeledDef {}) 0 []) :=
  ⟨rfl, rfl, rfl⟩

/-- `#[sval(dynamic)] enum E { #[sval(..)] A(T) }` -/
def dynamicItem (as : List (Text × Option Expr)) : Item' where
  ident := t! "E"
  attrs := sval [(t! "dynamic", none)]
  data := .enum [⟨t! "A", sval as, .unnamed [[]], none⟩]

/-- What it derives. -/
def dynamicDef (a : Attrs) : EnumDef where
  ident := t! "E"
  dyn := true
  variants := [{ ident := t! "A", shape := .newtype, attrs := a }]

/-- **C59** fails: the tag, label and index of a newtype variant of a dynamic enum are dropped. -/
theorem C59_fails_dynamic (N : Names) (feature : Bool) (v : RV) :
    let a : Attrs := { tag := some (N.tag (t! "P")), label := some (.const (t! "x")), index := some (.const 7) }
    derive N feature (dynamicItem [(t! "tag", some (.path (t! "P"))), (t! "label", some (.lit (.str (t! "x")))),
        (t! "index", some (.lit (.int 7)))]) = some (.enum (dynamicDef a)) ∧
      derive N feature (dynamicItem []) = some (.enum (dynamicDef {})) ∧
      tree (.enum (dynamicDef a) 0 [v]) = tree (.enum (dynamicDef {}) 0 [v]) :=
  ⟨rfl, rfl, rfl⟩

/-- `#[sval(unindexed_fields)] struct S(#[sval(..)] A, B)` -/
def tupleItem (as : List (Text × Option Expr)) : Item' where
  ident := t! "S"
  attrs := sval [(t! "unindexed_fields", none)]
  data := .struct (.unnamed [sval as, []])

/-- **C59** fails: the tag of a field is dropped if fields have neither labels nor indexes. -/
theorem C59_fails_tag (N : Names) (feature : Bool) (v w : RV) :
    derive N feature (tupleItem [(t! "tag", some (.path (t! "P")))]) =
        some (.struct false (t! "S") { unindexed := true } [{ tag := some (N.tag (t! "P")) }, {}]) ∧
      derive N feature (tupleItem []) = some (.struct false (t! "S") { unindexed := true } [{}, {}]) ∧
      tree (.struct false (t! "S") { unindexed := true } [{ tag := some (N.tag (t! "P")) }, {}] [v, w]) =
        tree (.struct false (t! "S") { unindexed := true } [{}, {}] [v, w]) :=
  ⟨rfl, rfl, rfl⟩

/-- `struct S { #[sval(flatten, ..)] a: A }` -/
def flattenItem (as : List (Text × Option Expr)) : Item' where
  ident := t! "S"
  attrs := []
  data := .struct (.named [(t! "a", sval ((t! "flatten", none) :: as))])

/-- **C59** fails: the tag, data tag and label of a flattened field are dropped, whatever the value of the field is. -/
theorem C59_fails_flatten (N : Names) (K : V → Text) (v : FV) :
    let f : Field := { ident := some (t! "a"), tag := some (N.tag (t! "P")), dataTag := some (N.tag (t! "P")),
                       label := some (.const (t! "x")), flatten := true }
    let g : Field := { ident := some (t! "a"), flatten := true }
    derive N true (flattenItem [(t! "tag", some (.path (t! "P"))), (t! "data_tag", some (.path (t! "P"))),
        (t! "label", some (.lit (.str (t! "x"))))]) = some (.struct true (t! "S") {} [f]) ∧
      derive N true (flattenItem []) = some (.struct true (t! "S") {} [g]) ∧
      ftree K (.struct true (t! "S") {} [f] [v]) = ftree K (.struct true (t! "S") {} [g] [v]) :=
  ⟨rfl, rfl, rfl⟩

/-! ## Examples -/

namespace Derive

/-- Names of constants. -/
def exN : Names where
  isPath s := s.all (·.isAlpha)
  tag p := ⟨p⟩
  label p := .new p
  index _ := { val := 100 }

/-- `#[sval(tag = "P")] #[doc(hidden)] #[sval(label = "s", index = -2)] struct S { #[sval(skip)] a: A,
#[sval(data_tag = Q, index = 5)] b: B, #[sval(label = L)] #[sval(tag = P)] c: C }` -/
def exItem : Item' where
  ident := t! "S"
  attrs := [⟨t! "sval", [(t! "tag", some (.lit (.str (t! "P"))))]⟩, ⟨t! "doc", [(t! "hidden", none)]⟩,
    ⟨t! "sval", [(t! "label", some (.lit (.str (t! "s")))), (t! "index", some (.neg (.int 2)))]⟩]
  data := .struct (.named [(t! "a", sval [(t! "skip", none)]),
    (t! "b", sval [(t! "data_tag", some (.path (t! "Q"))), (t! "index", some (.lit (.int 5)))]),
    (t! "c", sval [(t! "label", some (.path (t! "L")))] ++ sval [(t! "tag", some (.path (t! "P")))])])

def exAttrs : Attrs := { tag := some ⟨t! "P"⟩, label := some (.const (t! "s")), index := some (.const (-2)) }
def exFields : List Field := [{ ident := some (t! "a"), skip := true },
  { ident := some (t! "b"), dataTag := some ⟨t! "Q"⟩, index := some (.const 5) },
  { ident := some (t! "c"), label := some (.path (.new (t! "L"))), tag := some ⟨t! "P"⟩ }]

theorem exItem_derive : derive exN false exItem = some (.struct true (t! "S") exAttrs exFields) := rfl

theorem exItem_ok : ok (.struct true (t! "S") exAttrs exFields [.unit, .bool true, .null]) :=
  ⟨⟨rfl, by simp [exFields], rfl⟩, trivial, trivial, trivial, trivial⟩

/-- The same, in one list. -/
def exItem' : Item' := { exItem with attrs := sval [(t! "index", some (.neg (.int 2))), (t! "tag", some (.lit (.str (t! "P")))),
  (t! "label", some (.lit (.str (t! "s"))))] }

theorem exItem_same : SameItem exItem exItem' :=
  ⟨rfl, by rw [SameAttrs]; decide, ⟨rfl, List.Perm.refl _⟩, ⟨rfl, List.Perm.refl _⟩, ⟨rfl, List.Perm.refl _⟩, trivial⟩

/-- `#[sval(label = "e")] enum E { #[sval(index = 4)] A, #[sval(unlabeled_fields, tag = T)] B(#[sval(index = 9)] X, Y) }` -/
def exEnum : Item' where
  ident := t! "E"
  attrs := sval [(t! "label", some (.lit (.str (t! "e"))))]
  data := .enum [⟨t! "A", sval [(t! "index", some (.lit (.int 4)))], .unit, none⟩,
    ⟨t! "B", sval [(t! "unlabeled_fields", none), (t! "tag", some (.path (t! "T")))],
      .unnamed [sval [(t! "index", some (.lit (.int 9)))], []], none⟩]

def exEnumDef : EnumDef where
  ident := t! "E"
  label := some (.const (t! "e"))
  variants := [{ ident := t! "A", shape := .unit, attrs := { index := some (.const 4) } },
    { ident := t! "B", shape := .unnamed [{ index := some (.const 9) }, {}], attrs := { tag := some ⟨t! "T"⟩, unlabeled := true } }]

theorem exEnum_derive : derive exN false exEnum = some (.enum exEnumDef) := rfl

theorem exEnum_ok : ok (.enum exEnumDef 1 [.unit, .null]) :=
  ⟨⟨_, rfl, rfl, by simp, rfl⟩, trivial, trivial, trivial⟩

end Derive

example : derive exN false exItem' = some (.struct true (t! "S") exAttrs exFields) :=
  (C59_order exN false _ _ exItem_same).symm.trans exItem_derive

example := C59_type exN false exItem _ exItem_derive _ ⟨_, rfl⟩ exItem_ok
example := C59_type exN false exEnum _ exEnum_derive _ ⟨1, _, rfl⟩ exEnum_ok
example := C59_fields_partial exN false exItem _ rfl _ _ _ _ exItem_derive _ exItem_ok
example := C59_variant_partial exN false exEnum _ rfl _ exEnum_derive (by
  rintro (⟨e, h, -⟩ | ⟨h, -⟩)
  · rcases h with h | ⟨h, -⟩ <;> revert h <;> simp [exEnum, sval, pairs]
  · cases h) 1 _ rfl _ exEnum_ok
example := C59_variant_fields_partial exN false exEnum _ rfl _ exEnum_derive 1 _ rfl _ rfl (by simp) _ exEnum_ok

example : fieldsOf (tree (.struct true (t! "S") exAttrs exFields [.unit, .bool true, .null])) =
    [(none, some (identLabel (t! "b")), some { val := 5 }, .tagged { tag := some ⟨t! "Q"⟩ } (.bool true)),
      (some ⟨t! "P"⟩, some (.new (t! "L")), some { val := 6 }, .null)] := rfl

-- What does not compile: an attribute twice, one that is not known, `flatten` without the feature, a label where fields have
-- none, labels on some fields only, `tag` where there is nothing to have it, and an index that is not a number.
example : derive exN false { exItem with attrs := sval [(t! "tag", some (.path (t! "P")))] ++ sval [(t! "tag", some (.path (t! "P")))] } = none := rfl
example : derive exN false { exItem with attrs := sval [(t! "rename", some (.lit (.str (t! "x"))))] } = none := rfl
example : derive exN false (flattenItem []) = none := rfl
example : derive exN false { exItem with attrs := sval [(t! "unlabeled_fields", none)] } = none := rfl
example : derive exN false ⟨t! "S", [], .struct (.unnamed [sval [(t! "label", some (.lit (.str (t! "x"))))], []])⟩ = none := rfl
example : derive exN false ⟨t! "S", sval [(t! "transparent", none), (t! "tag", some (.path (t! "P")))], .struct (.unnamed [[]])⟩ = none := rfl
example : derive exN false ⟨t! "S", sval [(t! "index", some (.lit (.str (t! "1"))))], .struct .unit⟩ = none := rfl

end Sval
