import Verif.Derive.Attr
import Verif.Derive.Spec

set_option autoImplicit false

/-!
# Which definitions the attributes of an item describe

The specification of `Verif/Derive/Attr`: what is written, without the order and the grouping of attributes.
-/

namespace Sval.Derive

/-! ## Specification -/

/-- Two lists of the same length, with related elements. -/
def Each {α β : Type} (R : α → β → Prop) : List α → List β → Prop
  | [], [] => True
  | x :: xs, y :: ys => R x y ∧ Each R xs ys
  | _, _ => False

/-- The items of `#[sval(...)]` attributes. -/
def pairs (attrs : List Attribute) : List (Text × Option Expr) :=
  attrs.flatMap fun a => if a.path = t! "sval" then a.items else []

/-- `key = expr` is given; `key` alone is `key = true`. -/
def Gives (attrs : List Attribute) (k : Text) (e : Expr) : Prop :=
  (k, some e) ∈ pairs attrs ∨ (k, none) ∈ pairs attrs ∧ e = .lit (.bool true)

/-- No attribute is given twice, and none but the allowed ones. -/
def Valid (allowed : List Text) (attrs : List Attribute) : Prop :=
  ((pairs attrs).map (·.1)).Nodup ∧ ∀ k ∈ (pairs attrs).map (·.1), k ∈ allowed

/-- A path to a tag, maybe in quotes. -/
def IsTag (N : Names) (e : Expr) (t : Tag) : Prop := ∃ p, (e = .path p ∨ e = .lit (.str p) ∧ N.isPath p = true) ∧ t = N.tag p
/-- The text of a label, or a path to one. -/
def IsLabel (N : Names) (e : Expr) (l : LabelVal) : Prop :=
  ∃ s, e = .lit (.str s) ∧ l = .const s ∨ e = .path s ∧ l = .path (N.label s)
/-- A number, or a path to an index. -/
def IsIndex (N : Names) (e : Expr) (i : IndexVal) : Prop :=
  (∃ n : Nat, n < 2 ^ 63 ∧ (e = .lit (.int n) ∧ i = .const n ∨ e = .neg (.int n) ∧ i = .const (-n))) ∨
    ∃ p, e = .path p ∧ i = .path (N.index p)
def IsBool (e : Expr) (b : Bool) : Prop := e = .lit (.bool b)

/-- What an attribute says, if it is given. -/
def Reads {α : Type} (R : Expr → α → Prop) (attrs : List Attribute) (k : Text) : Option α → Prop
  | some x => ∃ e, Gives attrs k e ∧ R e x
  | none => ∀ e, ¬ Gives attrs k e

/-- What an attribute says that is `true` or `false`, and by default `false`. -/
def Flag (attrs : List Attribute) (k : Text) (b : Bool) : Prop :=
  Reads IsBool attrs k (some b) ∨ b = false ∧ Reads IsBool attrs k none

/-- The attributes that all types have. -/
def Common (N : Names) (attrs : List Attribute) (a : Attrs) : Prop :=
  Reads (IsTag N) attrs (t! "tag") a.tag ∧ Reads (IsLabel N) attrs (t! "label") a.label ∧
    Reads (IsIndex N) attrs (t! "index") a.index

def StructWritten (N : Names) (attrs : List Attribute) (a : Attrs) : Prop :=
  Valid [t! "tag", t! "label", t! "index", t! "unlabeled_fields", t! "unindexed_fields"] attrs ∧ Common N attrs a ∧
    Flag attrs (t! "unlabeled_fields") a.unlabeled ∧ Flag attrs (t! "unindexed_fields") a.unindexed

def UnitWritten (N : Names) (attrs : List Attribute) (a : Attrs) : Prop :=
  Valid [t! "tag", t! "label", t! "index"] attrs ∧ Common N attrs a ∧ a.unlabeled = false ∧ a.unindexed = false

/-- What is transparent has no tag, label or index. -/
def NewtypeWritten (N : Names) (attrs : List Attribute) (a : Attrs) (transparent : Bool) : Prop :=
  Valid [t! "tag", t! "label", t! "index", t! "transparent"] attrs ∧ Common N attrs a ∧ a.unlabeled = false ∧
    a.unindexed = false ∧ Flag attrs (t! "transparent") transparent ∧
    (transparent = true → a.tag = none ∧ a.label = none ∧ a.index = none)

/-- What is dynamic has nothing else. -/
def EnumWritten (N : Names) (ident : Text) (attrs : List Attribute) (d : EnumDef) : Prop :=
  Valid [t! "tag", t! "label", t! "index", t! "dynamic", t! "unlabeled_variants", t! "unindexed_variants"] attrs ∧
    Common N attrs { tag := d.tag, label := d.label, index := d.index } ∧ d.ident = ident ∧
    Flag attrs (t! "unlabeled_variants") d.unlabeledVariants ∧ Flag attrs (t! "unindexed_variants") d.unindexedVariants ∧
    Flag attrs (t! "dynamic") d.dyn ∧
    (d.dyn = true → d.tag = none ∧ d.label = none ∧ d.index = none ∧ d.unlabeledVariants = false ∧ d.unindexedVariants = false)

/-- A field of a struct with unlabeled (unindexed) fields has no label (index), and only one that is not skipped matters
otherwise. Fields are only flattened with the feature. -/
def FieldWritten (N : Names) (feature : Bool) (a : Attrs) (x : Option Text × List Attribute) (f : Field) : Prop :=
  Valid [t! "tag", t! "data_tag", t! "index", t! "label", t! "skip", t! "flatten"] x.2 ∧ f.ident = x.1 ∧
    Flag x.2 (t! "skip") f.skip ∧
    (f.skip = true → f.tag = none ∧ f.dataTag = none ∧ f.label = none ∧ f.index = none ∧ f.flatten = false) ∧
    (f.skip = false → Common N x.2 { tag := f.tag, label := f.label, index := f.index } ∧
      Reads (IsTag N) x.2 (t! "data_tag") f.dataTag ∧ Flag x.2 (t! "flatten") f.flatten ∧
      (a.unlabeled = true → f.label = none) ∧ (a.unindexed = true → f.index = none) ∧
      (feature = false → ∀ e, ¬ Gives x.2 (t! "flatten") e))

/-- If any fields have a label then all fields need one. -/
def FieldsWritten (N : Names) (feature : Bool) (a : Attrs) (xs : List (Option Text × List Attribute)) (fs : List Field) : Prop :=
  Each (FieldWritten N feature a) xs fs ∧
    (a.unlabeled = true ∨ (∀ f ∈ fs, f.skip = false → (nameOf f).isSome = true) ∨ ∀ f ∈ fs, f.skip = false → nameOf f = none)

/-- A discriminant: a number, a path, or something else, that has to have a value. -/
def DiscrWritten : Option (Expr × Int) → Option Discr → Prop
  | none, none => True
  | some (.lit (.int n), _), some (.lit i) => n < 2 ^ 63 ∧ i = n
  | some (.neg (.int n), _), some (.lit i) => n < 2 ^ 63 ∧ i = -n
  | some (.path _, v), some (.path i) => i = v
  | some (.other, v), some (.expr i) => i = v
  | _, _ => False

def ShapeWritten (N : Names) (feature : Bool) (attrs : List Attribute) (a : Attrs) : Fields → Shape → Prop
  | .unit, .unit => UnitWritten N attrs a
  | .unnamed xs, .newtype => (∃ x, xs = [x] ∧ pairs x = []) ∧ UnitWritten N attrs a
  | .named xs, .named fs => StructWritten N attrs a ∧ FieldsWritten N feature a (xs.map fun x => (some x.1, x.2)) fs
  | .unnamed xs, .unnamed fs => xs.length ≠ 1 ∧ StructWritten N attrs a ∧ FieldsWritten N feature a (xs.map fun x => (none, x)) fs
  | _, _ => False

def VariantWritten (N : Names) (feature : Bool) (x : VariantItem) (v : Variant) : Prop :=
  v.ident = x.ident ∧ DiscrWritten x.discr v.discr ∧ ShapeWritten N feature x.attrs v.attrs x.fields v.shape

/-- The definition that an item describes. -/
def Written (N : Names) (feature : Bool) (x : Item') : Def → Prop
  | .unitStruct ident a => x.data = .struct .unit ∧ ident = x.ident ∧ UnitWritten N x.attrs a
  | .newtype ident a transparent => ∃ y, x.data = .struct (.unnamed [y]) ∧ pairs y = [] ∧ ident = x.ident ∧
      NewtypeWritten N x.attrs a transparent
  | .struct true ident a fs => ∃ ys, x.data = .struct (.named ys) ∧ ident = x.ident ∧ StructWritten N x.attrs a ∧
      FieldsWritten N feature a (ys.map fun y => (some y.1, y.2)) fs
  | .struct false ident a fs => ∃ ys, x.data = .struct (.unnamed ys) ∧ ys.length ≠ 1 ∧ ident = x.ident ∧
      StructWritten N x.attrs a ∧ FieldsWritten N feature a (ys.map fun y => (none, y)) fs
  | .void ident => x.data = .enum [] ∧ ident = x.ident ∧ pairs x.attrs = []
  | .enum d => ∃ ys, x.data = .enum ys ∧ ys ≠ [] ∧ EnumWritten N x.ident x.attrs d ∧
      Each (VariantWritten N feature) ys d.variants

/-! ## Lookup -/

/-- The value of an attribute. -/
def orTrue (e : Option Expr) : Expr := e.getD (.lit (.bool true))

theorem given_eq (attrs : List Attribute) : given attrs = (pairs attrs).map fun p => (p.1, orTrue p.2) := by
  induction attrs with
  | nil => rfl
  | cons a as ih =>
    simp only [given, List.filterMap_cons, pairs, List.flatMap_cons] at ih ⊢
    by_cases h : a.path = t! "sval"
    · simp only [svalAttr, h, decide_true, Bool.not_true, Bool.false_eq_true, if_false, List.flatten_cons, if_true,
        List.map_append, ih]
      congr 1
      refine List.map_congr_left fun p _ => ?_
      cases p.2 <;> rfl
    · simp only [svalAttr, h, decide_false, Bool.not_false, if_true, if_false, List.nil_append, ih]

theorem gives_iff (attrs : List Attribute) (k : Text) (e : Expr) : Gives attrs k e ↔ (k, e) ∈ given attrs := by
  rw [given_eq, List.mem_map]
  constructor
  · rintro (h | ⟨h, rfl⟩)
    · exact ⟨_, h, rfl⟩
    · exact ⟨_, h, rfl⟩
  · rintro ⟨⟨k', e'⟩, h, he⟩
    cases e' with
    | none => cases he; exact .inr ⟨h, rfl⟩
    | some e' => cases he; exact .inl h

theorem keys_eq (attrs : List Attribute) : (pairs attrs).map (·.1) = (given attrs).map (·.1) := by
  rw [given_eq, List.map_map]; rfl

theorem checkKey_notin (key : Text) (as seen : List Text) (v : Bool) (h : key ∉ as) :
    checkKey key as seen v = some (seen, v) := by
  induction as with
  | nil => rfl
  | cons a as ih =>
    simp only [List.mem_cons, not_or] at h
    rw [checkKey, if_neg h.1, ih h.2]

theorem checkKey_in (key : Text) (as seen : List Text) (v : Bool) (h : key ∈ as) (hn : as.Nodup) :
    checkKey key as seen v = if key ∈ seen then none else some (key :: seen, true) := by
  induction as with
  | nil => simp at h
  | cons a as ih =>
    rw [List.nodup_cons] at hn
    by_cases hk : key = a
    · subst hk
      simp only [checkKey, if_true, List.contains_iff_mem]
      split
      · rfl
      · exact checkKey_notin key as _ true hn.1
    · rw [checkKey, if_neg hk]
      exact ih (by simpa [hk] using h) hn.2

theorem checkAll_iff (allowed : List Text) (hn : allowed.Nodup) (ps : List (Text × Expr)) (seen : List Text) :
    checkAll allowed seen ps = some () ↔
      (ps.map (·.1)).Nodup ∧ (∀ k ∈ ps.map (·.1), k ∈ allowed) ∧ ∀ k ∈ ps.map (·.1), k ∉ seen := by
  induction ps generalizing seen with
  | nil => simp [checkAll]
  | cons p ps ih =>
    obtain ⟨k, e⟩ := p
    by_cases hk : k ∈ allowed
    · rw [checkAll, checkKey_in k allowed seen false hk hn]
      by_cases hs : k ∈ seen
      · simp [hs]
      · rw [if_neg hs]
        change checkAll allowed (k :: seen) ps = some () ↔ _
        rw [ih]
        simp only [List.map_cons, List.nodup_cons, List.mem_cons, forall_eq_or_imp, hk, hs, true_and, not_false_eq_true, not_or]
        constructor
        · rintro ⟨h1, h2, h3⟩
          exact ⟨⟨fun h => (h3 _ h).1 rfl, h1⟩, h2, fun x hx => (h3 x hx).2⟩
        · rintro ⟨⟨h1, h2⟩, h3, h4⟩
          exact ⟨h2, h3, fun x hx => ⟨fun h => h1 (h ▸ hx), h4 x hx⟩⟩
    · rw [checkAll, checkKey_notin k allowed seen false hk]
      simp [hk]

theorem check_iff (allowed : List Text) (hn : allowed.Nodup) (attrs : List Attribute) :
    check allowed attrs = some () ↔ Valid allowed attrs := by
  rw [check, checkAll_iff allowed hn, Valid, keys_eq]
  simp

theorem ensureEmpty_iff (attrs : List Attribute) : ensureEmpty attrs = some () ↔ pairs attrs = [] := by
  rw [ensureEmpty]
  have h : given attrs = [] ↔ pairs attrs = [] := by rw [given_eq]; exact List.map_eq_nil_iff
  rw [← h]
  cases given attrs <;> simp

theorem go_iff {α : Type} (k : Text) (f : Expr → Option α) (ps : List (Text × Expr)) (hn : (ps.map (·.1)).Nodup) :
    (get.go k f ps = some none ↔ ∀ e, (k, e) ∉ ps) ∧
      ∀ x, get.go k f ps = some (some x) ↔ ∃ e, (k, e) ∈ ps ∧ f e = some x := by
  induction ps with
  | nil => simp [get.go]
  | cons p ps ih =>
    obtain ⟨k', e'⟩ := p
    rw [List.map_cons, List.nodup_cons] at hn
    by_cases hk : k' = k
    · subst hk
      have hno : ∀ e, (k', e) ∉ ps := fun e he => hn.1 (List.mem_map.mpr ⟨_, he, rfl⟩)
      rw [get.go, if_pos rfl]
      refine ⟨⟨fun h => ?_, fun h => absurd List.mem_cons_self (h e')⟩, fun x => ⟨fun h => ?_, fun ⟨e, he, hx⟩ => ?_⟩⟩
      · cases hf : f e' <;> simp [hf] at h
      · exact ⟨e', List.mem_cons_self, by cases hf : f e' <;> simp_all⟩
      · rcases List.mem_cons.mp he with h | h
        · cases h; simp [hx]
        · exact absurd h (hno e)
    · have hm : ∀ e, (k, e) ∈ (k', e') :: ps ↔ (k, e) ∈ ps := fun e => by simp [Ne.symm hk]
      rw [get.go, if_neg hk]
      simp only [hm]
      exact ih hn.2

theorem get_iff {α : Type} (k : Text) (f : Expr → Option α) (R : Expr → α → Prop) (hf : ∀ e x, f e = some x ↔ R e x)
    (attrs : List Attribute) (hn : ((pairs attrs).map (·.1)).Nodup) (r : Option α) :
    get k f attrs = some r ↔ Reads R attrs k r := by
  rw [keys_eq] at hn
  rw [get]
  have h := go_iff k f (given attrs) hn
  cases r with
  | none => simpa only [Reads, gives_iff] using h.1
  | some x => simpa only [Reads, gives_iff, ← hf] using h.2 x

theorem tryTag_iff (N : Names) (e : Expr) (t : Tag) : tryTag N e = some t ↔ IsTag N e t := by
  unfold IsTag tryTag
  constructor
  · split
    · split <;> intro h
      · exact ⟨_, .inr ⟨rfl, by assumption⟩, (Option.some.inj h).symm⟩
      · cases h
    · intro h; cases h
    · intro h; exact ⟨_, .inl rfl, (Option.some.inj h).symm⟩
    · intro h; cases h
  · rintro ⟨p, rfl | ⟨rfl, h⟩, rfl⟩
    · rfl
    · simp [h]

theorem tryLabel_iff (N : Names) (e : Expr) (l : LabelVal) : tryLabel N e = some l ↔ IsLabel N e l := by
  unfold IsLabel tryLabel
  constructor
  · split <;> intro h
    · exact ⟨_, .inl ⟨rfl, (Option.some.inj h).symm⟩⟩
    · cases h
    · exact ⟨_, .inr ⟨rfl, (Option.some.inj h).symm⟩⟩
    · cases h
  · rintro ⟨p, ⟨rfl, rfl⟩ | ⟨rfl, rfl⟩⟩ <;> rfl

theorem constFromLit_iff (l : Lit) (i : Int) : constFromLit l = some i ↔ ∃ n : Nat, n < 2 ^ 63 ∧ l = .int n ∧ i = n := by
  constructor
  · intro h
    cases l with
    | int n =>
      simp only [constFromLit] at h
      split at h
      · exact ⟨n, by assumption, rfl, (Option.some.inj h).symm⟩
      · cases h
    | _ => cases h
  · rintro ⟨n, hn, rfl, rfl⟩
    simp [constFromLit, hn]

theorem tryIndex_iff (N : Names) (e : Expr) (i : IndexVal) : (tryIndex N e).bind id = some i ↔ IsIndex N e i := by
  unfold IsIndex
  constructor
  · intro h
    cases e with
    | other => cases h
    | path p => exact .inr ⟨p, rfl, (Option.some.inj h).symm⟩
    | lit l =>
      cases hl : constFromLit l with
      | none => simp [tryIndex, hl] at h
      | some n =>
        obtain ⟨m, h1, rfl, rfl⟩ := (constFromLit_iff l n).mp hl
        simp only [tryIndex, hl, Option.map_some, Option.bind_some, id] at h
        exact .inl ⟨m, h1, .inl ⟨rfl, (Option.some.inj h).symm⟩⟩
    | neg l =>
      cases hl : constFromLit l with
      | none => simp [tryIndex, hl] at h
      | some n =>
        obtain ⟨m, h1, rfl, rfl⟩ := (constFromLit_iff l n).mp hl
        simp only [tryIndex, hl, Option.map_some, Option.bind_some, id] at h
        exact .inl ⟨m, h1, .inr ⟨rfl, (Option.some.inj h).symm⟩⟩
  · rintro (⟨n, hn, ⟨rfl, rfl⟩ | ⟨rfl, rfl⟩⟩ | ⟨p, rfl, rfl⟩)
    · simp [tryIndex, constFromLit, hn]
    · simp [tryIndex, constFromLit, hn]
    · rfl

theorem tryBool_iff (e : Expr) (b : Bool) : tryBool e = some b ↔ IsBool e b := by
  unfold IsBool tryBool
  constructor
  · split <;> intro h
    · cases h; rfl
    · cases h
  · rintro rfl; rfl

section
variable (N : Names) (attrs : List Attribute) (hn : ((pairs attrs).map (·.1)).Nodup)
include hn

theorem getTag_iff (k : Text) (r : Option Tag) : get k (tryTag N) attrs = some r ↔ Reads (IsTag N) attrs k r :=
  get_iff k _ _ (tryTag_iff N) attrs hn r
theorem getLabel_iff (k : Text) (r : Option LabelVal) : get k (tryLabel N) attrs = some r ↔ Reads (IsLabel N) attrs k r :=
  get_iff k _ _ (tryLabel_iff N) attrs hn r
theorem getIndex_iff (r : Option IndexVal) : getIndex N attrs = some r ↔ Reads (IsIndex N) attrs (t! "index") r :=
  get_iff _ _ _ (tryIndex_iff N) attrs hn r

theorem getD_iff (k : Text) (f : Expr → Option Bool) (R : Expr → Bool → Prop) (hf : ∀ e x, f e = some x ↔ R e x) (b : Bool) :
    (get k f attrs).map (·.getD false) = some b ↔ Reads R attrs k (some b) ∨ b = false ∧ Reads R attrs k none := by
  rw [← get_iff k f R hf attrs hn, ← get_iff k f R hf attrs hn]
  match get k f attrs with
  | none => simp
  | some none => simp [eq_comm]
  | some (some c) => simp

theorem getBool_iff (k : Text) (b : Bool) : getBool k attrs = some b ↔ Flag attrs k b := getD_iff attrs hn k _ _ tryBool_iff b

end

/-! ## Attributes of types -/

theorem bind_iff {α β : Type} (o : Option α) (f : α → Option β) (b : β) :
    (o >>= f) = some b ↔ ∃ a, o = some a ∧ f a = some b := by
  cases o <;> simp

theorem bind_unit_iff {β : Type} (o : Option Unit) (f : Unit → Option β) (b : β) :
    (o >>= f) = some b ↔ o = some () ∧ f () = some b := by
  cases o <;> simp

theorem structAttrs_iff (N : Names) (attrs : List Attribute) (a : Attrs) :
    structAttrs N attrs = some a ↔ StructWritten N attrs a := by
  rw [structAttrs, bind_unit_iff, check_iff _ (by decide), StructWritten]
  refine and_congr_right fun hv => ?_
  simp only [bind_iff, getTag_iff N attrs hv.1, getLabel_iff N attrs hv.1, getIndex_iff N attrs hv.1, getBool_iff attrs hv.1, Common]
  constructor
  · rintro ⟨_, h1, _, h2, _, h3, _, h4, _, h5, h⟩
    cases h
    exact ⟨⟨h1, h2, h3⟩, h4, h5⟩
  · rintro ⟨⟨h1, h2, h3⟩, h4, h5⟩
    exact ⟨_, h1, _, h2, _, h3, _, h4, _, h5, rfl⟩

theorem unitAttrs_iff (N : Names) (attrs : List Attribute) (a : Attrs) :
    unitAttrs N attrs = some a ↔ UnitWritten N attrs a := by
  rw [unitAttrs, bind_unit_iff, check_iff _ (by decide), UnitWritten]
  refine and_congr_right fun hv => ?_
  simp only [bind_iff, getTag_iff N attrs hv.1, getLabel_iff N attrs hv.1, getIndex_iff N attrs hv.1, Common]
  constructor
  · rintro ⟨_, h1, _, h2, _, h3, h⟩
    cases h
    exact ⟨⟨h1, h2, h3⟩, rfl, rfl⟩
  · rintro ⟨⟨h1, h2, h3⟩, h4, h5⟩
    refine ⟨_, h1, _, h2, _, h3, ?_⟩
    obtain ⟨a, b, c, d, e⟩ := a
    cases h4
    cases h5
    rfl

theorem newtypeAttrs_iff (N : Names) (attrs : List Attribute) (a : Attrs) (transparent : Bool) :
    newtypeAttrs N attrs = some (a, transparent) ↔ NewtypeWritten N attrs a transparent := by
  rw [newtypeAttrs, bind_unit_iff, check_iff _ (by decide), NewtypeWritten]
  refine and_congr_right fun hv => ?_
  simp only [bind_iff, getTag_iff N attrs hv.1, getLabel_iff N attrs hv.1, getIndex_iff N attrs hv.1, getBool_iff attrs hv.1, Common]
  constructor
  · rintro ⟨t, h1, l, h2, i, h3, b, h4, h⟩
    split at h
    · cases h
    · rename_i hc
      cases h
      refine ⟨⟨h1, h2, h3⟩, rfl, rfl, h4, ?_⟩
      rintro rfl
      simpa [and_assoc] using hc
  · rintro ⟨⟨h1, h2, h3⟩, h4, h5, h6, h7⟩
    refine ⟨_, h1, _, h2, _, h3, _, h6, ?_⟩
    rw [if_neg ?_]
    · obtain ⟨a, b, c, d, e⟩ := a
      cases h4
      cases h5
      rfl
    · cases transparent
      · simp
      · simp [h7 rfl]

theorem enumAttrs_iff (N : Names) (ident : Text) (attrs : List Attribute) (d : EnumDef) (hd : d.variants = []) :
    enumAttrs N ident attrs = some d ↔ EnumWritten N ident attrs d := by
  rw [enumAttrs, bind_unit_iff, check_iff _ (by decide), EnumWritten]
  refine and_congr_right fun hv => ?_
  simp only [bind_iff, getTag_iff N attrs hv.1, getLabel_iff N attrs hv.1, getIndex_iff N attrs hv.1, getBool_iff attrs hv.1, Common]
  constructor
  · rintro ⟨t, h1, l, h2, i, h3, u, h4, w, h5, b, h6, h⟩
    split at h
    · cases h
    · rename_i hc
      cases h
      refine ⟨⟨h1, h2, h3⟩, rfl, h4, h5, h6, ?_⟩
      rintro rfl
      simpa [and_assoc] using hc
  · rintro ⟨⟨h1, h2, h3⟩, h4, h5, h6, h7, h8⟩
    refine ⟨_, h1, _, h2, _, h3, _, h5, _, h6, _, h7, ?_⟩
    rw [if_neg ?_]
    · rw [← h4]
      obtain ⟨a, b, c, e, f, g, h, i⟩ := d
      cases hd
      rfl
    · cases hc : d.dyn
      · simp
      · simp [h8 hc]

theorem enumAttrs_variants (N : Names) (ident : Text) (attrs : List Attribute) (d : EnumDef) (h : enumAttrs N ident attrs = some d) :
    d.variants = [] := by
  simp only [enumAttrs, bind_iff] at h
  obtain ⟨_, _, _, _, _, _, _, _, _, _, _, _, _, _, h⟩ := h
  split at h
  · cases h
  · cases h; rfl

theorem ensureMissing_iff {α : Type} (k : Text) (f : Expr → Option α) (R : Expr → α → Prop) (hf : ∀ e x, f e = some x ↔ R e x)
    (attrs : List Attribute) (hn : ((pairs attrs).map (·.1)).Nodup) :
    ensureMissing k f attrs = some () ↔ Reads R attrs k none := by
  rw [← get_iff k f R hf attrs hn, ensureMissing]
  match get k f attrs with
  | none => simp
  | some none => simp
  | some (some c) => simp

theorem mapNone_iff {α : Type} (o : Option Unit) (r : Option α) :
    (o.map fun _ => (none : Option α)) = some r ↔ o = some () ∧ r = none := by
  cases o <;> simp [eq_comm]

theorem fieldAttrs_iff (N : Names) (feature : Bool) (a : Attrs) (x : Option Text × List Attribute) (f : Field) :
    fieldAttrs N feature a x.1 x.2 = some f ↔ FieldWritten N feature a x f := by
  obtain ⟨ident, attrs⟩ := x
  rw [fieldAttrs, bind_unit_iff, check_iff _ (by decide), FieldWritten]
  refine and_congr_right fun hv => ?_
  have hflat : ∀ b, (get (t! "flatten") (tryFlatten feature) attrs).map (·.getD false) = some b ↔
      Flag attrs (t! "flatten") b ∧ (feature = false → ∀ e, ¬ Gives attrs (t! "flatten") e) := by
    intro b
    cases feature
    · have h := getD_iff attrs hv.1 (t! "flatten") (tryFlatten false) (fun _ _ => False) (by simp [tryFlatten]) b
      rw [h]
      simp only [Reads, Flag, and_false, exists_false, false_or, true_implies]
      constructor
      · rintro ⟨h1, h2⟩; exact ⟨.inr ⟨h1, h2⟩, h2⟩
      · rintro ⟨⟨e, h1, -⟩ | h1, h2⟩
        · exact absurd h1 (h2 e)
        · exact h1
    · have h := getD_iff attrs hv.1 (t! "flatten") (tryFlatten true) IsBool tryBool_iff b
      rw [h]
      simp [Flag]
  simp only [bind_iff, getBool_iff attrs hv.1]
  have hlabel : ∀ r, fieldLabel N a attrs = some r ↔
      Reads (IsLabel N) attrs (t! "label") r ∧ (a.unlabeled = true → r = none) := by
    intro r
    rw [fieldLabel]
    split
    · rename_i hu
      rw [mapNone_iff, ensureMissing_iff _ _ _ (tryLabel_iff N) attrs hv.1]
      constructor
      · rintro ⟨h, rfl⟩; exact ⟨h, fun _ => rfl⟩
      · rintro ⟨h, hr⟩; cases hr hu; exact ⟨h, rfl⟩
    · rename_i hu
      rw [getLabel_iff N attrs hv.1]
      exact ⟨fun h => ⟨h, fun h => absurd h hu⟩, fun h => h.1⟩
  have hindex : ∀ r, fieldIndex N a attrs = some r ↔
      Reads (IsIndex N) attrs (t! "index") r ∧ (a.unindexed = true → r = none) := by
    intro r
    rw [fieldIndex]
    split
    · rename_i hu
      rw [mapNone_iff, ensureMissing_iff _ _ _ (tryIndex_iff N) attrs hv.1]
      constructor
      · rintro ⟨h, rfl⟩; exact ⟨h, fun _ => rfl⟩
      · rintro ⟨h, hr⟩; cases hr hu; exact ⟨h, rfl⟩
    · rename_i hu
      rw [getIndex_iff N attrs hv.1]
      exact ⟨fun h => ⟨h, fun h => absurd h hu⟩, fun h => h.1⟩
  constructor
  · rintro ⟨skip, hs, h⟩
    split at h
    · rename_i hk
      cases h
      exact ⟨rfl, hk ▸ hs, fun _ => ⟨rfl, rfl, rfl, rfl, rfl⟩, fun h => by cases h⟩
    · rename_i hk
      simp only [bind_iff, hlabel, hindex, hflat, getTag_iff N attrs hv.1] at h
      obtain ⟨_, h1, _, ⟨h2, h2'⟩, _, ⟨h3, h3'⟩, _, ⟨h4, h4'⟩, _, h5, h⟩ := h
      cases h
      simp only [Bool.not_eq_true] at hk
      refine ⟨rfl, hk ▸ hs, fun h => (by cases h), fun _ => ⟨⟨h1, h2, h3⟩, h5, h4, h2', h3', h4'⟩⟩
  · rintro ⟨hi, hs, h1, h2⟩
    obtain ⟨i, t, dt, l, ix, sk, fl⟩ := f
    simp only at hi hs h1 h2
    subst hi
    refine ⟨sk, hs, ?_⟩
    cases sk with
    | true =>
      obtain ⟨rfl, rfl, rfl, rfl, rfl⟩ := h1 rfl
      rfl
    | false =>
      obtain ⟨⟨h3, h4, h5⟩, h6, h7, h8, h9, h10⟩ := h2 rfl
      rw [if_neg (by simp)]
      simp only [bind_iff, hlabel, hindex, hflat, getTag_iff N attrs hv.1]
      exact ⟨_, h3, _, ⟨h4, h8⟩, _, ⟨h5, h9⟩, _, ⟨h7, h10⟩, _, h6, rfl⟩

end Sval.Derive
