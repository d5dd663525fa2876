import Verif.Props.KeptSerde
import Verif.Props.KeptExact

set_option autoImplicit false

/-!
# C105 for serde, exactly

Skipped fields are the only thing that is lost.
-/

namespace Sval

open Nested (prog)
open Rust
open Derive (Field Attrs Shape Variant EnumDef)
open Serde (SV SCall svOf svVariant svsOf svMap svTup svVals svValsRT svRec svRT staticName serialize ser consO_some bindMap_some calls)

/-- What the fields hold that are not skipped. -/
theorem rows_svTold {fs : List Field} {vs ws : List RV} {ss : List SV}
    (hv : fs.length = vs.length) (hw : fs.length = ws.length)
    (h : ((Derive.rows fs (trees vs)).map fun r => svOf (Derive.data r.1 r.2)) = ss.map some)
    (h' : ((Derive.rows fs (trees ws)).map fun r => svOf (Derive.data r.1 r.2)) = ss.map some)
    (hi : ∀ (i : Nat) x y s, vs[i]? = some x → ws[i]? = some y → svOf (tree x) = some s → svOf (tree y) = some s → blank x = blank y) :
    blanks fs vs = blanks fs ws := by
  induction fs generalizing vs ws ss with
  | nil => rw [List.length_eq_zero_iff.1 hv.symm, List.length_eq_zero_iff.1 hw.symm]
  | cons f fs ih =>
    cases vs with
    | nil => cases hv
    | cons v vs =>
      cases ws with
      | nil => cases hw
      | cons w ws =>
        have ih := fun ss => ih (vs := vs) (ws := ws) (ss := ss) (by simpa using hv) (by simpa using hw)
        have hi' := fun (i : Nat) x y s (e1 : vs[i]? = some x) (e2 : ws[i]? = some y) => hi (i + 1) x y s e1 e2
        simp only [Derive.rows, trees, List.zip_cons_cons, List.filter_cons] at h h' ih
        rw [blanks, blanks]
        cases hs : f.skip with
        | true =>
          simp only [hs, Bool.not_true, Bool.false_eq_true, if_false] at h h'
          rw [ih ss h h' hi']
          rfl
        | false =>
          simp only [hs, Bool.not_false, if_true, List.map_cons] at h h'
          cases ss with
          | nil => cases h
          | cons s ss =>
            simp only [List.map_cons, List.cons.injEq] at h h'
            obtain ⟨t, h1, h2⟩ := data_sv h.1
            rw [ih ss h.2 h'.2 hi']
            simp only [Bool.false_eq_true, if_false]
            rw [hi 0 v w t rfl rfl h1 (h2 _ h'.1)]

theorem variant_svTold {d : EnumDef} {v : Variant} {i : Option Index} {vs ws : List RV} {name : Text} {s : SV} (hd : d.dyn = false)
    (ho : okVariant v vs.length) (ho' : okVariant v ws.length)
    (h : svVariant name (Derive.variantTree d v i (trees vs)) = some s) (h' : svVariant name (Derive.variantTree d v i (trees ws)) = some s)
    (hi : ∀ (i : Nat) x y s, vs[i]? = some x → ws[i]? = some y → svOf (tree x) = some s → svOf (tree y) = some s → blank x = blank y) :
    blanks (fieldsOf v.shape) vs = blanks (fieldsOf v.shape) ws := by
  simp only [Derive.variantTree] at h h'
  cases hsh : v.shape with
  | unit =>
    simp only [okVariant, hsh] at ho ho'
    rw [List.length_eq_zero_iff.1 ho, List.length_eq_zero_iff.1 ho']
  | newtype =>
    simp only [okVariant, hsh] at ho ho'
    obtain ⟨x, rfl⟩ := List.length_eq_one_iff.mp ho
    obtain ⟨y, rfl⟩ := List.length_eq_one_iff.mp ho'
    simp only [hsh, trees, hd, Bool.false_eq_true, if_false, svVariant] at h h'
    obtain ⟨_, z, _, h2, rfl⟩ := bindMap_some h
    obtain ⟨_, z', _, h3, e⟩ := bindMap_some h'
    simp only [SV.newtypeVariant.injEq] at e
    simp only [fieldsOf, blanks, hi 0 x y z rfl rfl h2 (by rw [h3, e.2.2.2])]
  | named fs | unnamed fs =>
    simp only [okVariant, hsh] at ho ho'
    simp only [hsh] at h h'
    exact rows_svTold ho.2.2 ho'.2.2 (struct_svVariant h).1 (struct_svVariant h').1 hi

namespace Ty

/-- Enums are not dynamic, and their variants differ in label or index. -/
def toldSerde : Ty → Prop
  | .option t | .boxed t | .newtype _ _ _ t | .slice t | .array t => t.toldSerde
  | .tuple _ ts => ∀ i, (ts i).toldSerde
  | .map k t => k.toldSerde ∧ t.toldSerde
  | .struct _ _ _ _ ts => ∀ i, (ts i).toldSerde
  | .enum d ts => d.dyn = false ∧
      (∀ i i' v v', d.variants[i]? = some v → d.variants[i']? = some v' → (∃ n, okVariant v n) → (∃ n, okVariant v' n) →
        (Derive.variantName d v).map Label.text = (Derive.variantName d v').map Label.text →
        (indexOf d i).map Index.val = (indexOf d i').map Index.val → i = i') ∧
      ∀ i k, (ts i k).toldSerde
  | _ => True

/-- Values that are the same serde values are the same but for skipped fields. -/
theorem sv_told (ty : Ty) (hk : ty.toldSerde) (x y : RV) (hx : ty.has x) (hy : ty.has y) (s : SV) (h : svOf (tree x) = some s)
    (h' : svOf (tree y) = some s) : blank x = blank y := by
  have list : ∀ (xs ys : List RV) (ss : List SV), (trees xs).map svOf = ss.map some → (trees ys).map svOf = ss.map some →
      (∀ (i : Nat) x y s, xs[i]? = some x → ys[i]? = some y → svOf (tree x) = some s → svOf (tree y) = some s → blank x = blank y) →
      blanks [] xs = blanks [] ys := by
    intro xs ys ss h h' hi
    induction xs generalizing ys ss with
    | nil => cases ss with
      | nil => cases ys with
        | nil => rfl
        | cons _ _ => cases h'
      | cons _ _ => cases h
    | cons x xs ih => cases ss with
      | nil => cases h
      | cons s ss => cases ys with
        | nil => cases h'
        | cons y ys =>
          simp only [trees, List.map_cons, List.cons.injEq] at h h'
          rw [blanks, blanks, hi 0 x y s rfl rfl h.1 h'.1, ih ys ss h.2 h'.2 fun i x y s e1 e2 => hi (i + 1) x y s e1 e2]
  induction ty generalizing x y s with
  | unit =>
    cases x <;> first | exact (show False from hx).elim | skip
    cases y <;> first | exact (show False from hy).elim | skip
    rfl
  | bool | f32 | f64 =>
    cases x <;> first | exact (show False from hx).elim | skip
    cases y <;> first | exact (show False from hy).elim | skip
    cases h; cases h'; rfl
  | int t =>
    cases x <;> first | exact (show False from hx).elim | skip
    cases y <;> first | exact (show False from hy).elim | skip
    cases h; cases h'; rfl
  | char =>
    cases x <;> first | exact (show False from hx).elim | skip
    cases y <;> first | exact (show False from hy).elim | skip
    cases h; cases h'; rfl
  | str =>
    cases x <;> first | exact (show False from hx).elim | skip
    cases y <;> first | exact (show False from hy).elim | skip
    have := h.trans h'.symm
    simp only [tree, svOf, Frag.content, List.map_cons, List.map_nil, List.flatten_cons, List.flatten_nil, List.append_nil,
      Option.some.injEq, SV.str.injEq] at this
    rw [this]
  | bytes =>
    cases x <;> first | exact (show False from hx).elim | skip
    cases y <;> first | exact (show False from hy).elim | skip
    have := h.trans h'.symm
    simp only [tree, svOf, Frag.content, List.map_cons, List.map_nil, List.flatten_cons, List.flatten_nil, List.append_nil,
      Option.some.injEq, SV.bytes.injEq] at this
    rw [this]
  | byteArray =>
    cases x <;> first | exact (show False from hx).elim | skip
    cases h
  | option t ih =>
    cases x <;> first | exact (show False from hx).elim | skip
    · cases y <;> first | exact (show False from hy).elim | skip
      · rfl
      · rename_i w
        have h1 : svOf (tree (.some w)) = (svOf (tree w)).map .some := rfl
        rw [h1] at h'
        cases h
        cases hw : svOf (tree w) <;> rw [hw] at h' <;> cases h'
    · rename_i v
      have h1 : ∀ w, svOf (tree (.some w)) = (svOf (tree w)).map .some := fun _ => rfl
      rw [h1] at h
      cases hv : svOf (tree v) with
      | none => rw [hv] at h; cases h
      | some a =>
        rw [hv] at h
        cases h
        cases y <;> first | exact (show False from hy).elim | skip
        · cases h'
        · rename_i w
          rw [h1] at h'
          cases hw : svOf (tree w) with
          | none => rw [hw] at h'; cases h'
          | some b =>
            rw [hw] at h'
            cases h'
            simp only [blank]
            rw [ih hk v w hx hy a hv hw]
  | boxed t ih =>
    cases x <;> first | exact (show False from hx).elim | skip
    cases y <;> first | exact (show False from hy).elim | skip
    rename_i v w
    simp only [blank]
    rw [ih hk v w hx hy s h h']
  | slice t ih =>
    cases x <;> first | exact (show False from hx).elim | skip
    cases y <;> first | exact (show False from hy).elim | skip
    simp only [tree, svOf, Option.map_eq_some_iff] at h h'
    obtain ⟨a, ha, rfl⟩ := h
    obtain ⟨b, hb, e⟩ := h'
    simp only [SV.seq.injEq] at e
    obtain ⟨_, rfl⟩ := e
    simp only [blank]
    rw [list _ _ _ (svsOf_map ha) (svsOf_map hb) fun i x y s e1 e2 => ih hk x y (hx x (List.mem_of_getElem? e1)) (hy y (List.mem_of_getElem? e2)) s]
  | array t ih =>
    cases x <;> first | exact (show False from hx).elim | skip
    cases h
  | tuple n ts ih =>
    cases x <;> first | exact (show False from hx).elim | skip
    cases y <;> first | exact (show False from hy).elim | skip
    have hz : ∀ us : List V, (us.zipIdx.map fun x => svOf x.1) = us.map svOf := by
      intro us
      have : us.zipIdx.map Prod.fst = us := List.zipIdx_map_fst 0 us
      conv => rhs; rw [← this]
      rw [List.map_map]; rfl
    simp only [tree, svOf, Option.bind_some, Option.map_eq_some_iff] at h h'
    obtain ⟨a, ha, rfl⟩ := h
    obtain ⟨b, hb, e⟩ := h'
    simp only [SV.tuple.injEq] at e
    obtain ⟨_, rfl⟩ := e
    have ha := svTup_map ha
    have hb := svTup_map hb
    simp only [List.map_map, Function.comp_def, hz] at ha hb
    simp only [blank]
    rw [list _ _ _ ha hb fun i x y s e1 e2 => ih i (hk i) x y (hx.2 i x e1) (hy.2 i y e2) s]
  | map k t ihk ih =>
    cases x <;> first | exact (show False from hx).elim | skip
    cases y <;> first | exact (show False from hy).elim | skip
    rename_i ks vs ks' vs'
    obtain ⟨hl, hxk, hxv⟩ := hx
    obtain ⟨hl', hyk, hyv⟩ := hy
    simp only [tree, svOf, Option.map_eq_some_iff] at h h'
    obtain ⟨a, ha, rfl⟩ := h
    obtain ⟨b, hb, e⟩ := h'
    simp only [SV.map.injEq] at e
    obtain ⟨_, rfl⟩ := e
    have key : ∀ (ks vs : List RV) (b : List (SV × SV)), ks.length = vs.length → svMap ((trees ks).zip (trees vs)) = some b →
        (trees ks).map svOf = (b.map (·.1)).map some ∧ (trees vs).map svOf = (b.map (·.2)).map some := by
      intro ks
      induction ks with
      | nil => intro vs b hl hb; cases vs with
        | nil => cases hb; exact ⟨rfl, rfl⟩
        | cons _ _ => cases hl
      | cons k ks ihm => intro vs b hl hb; cases vs with
        | nil => cases hl
        | cons v vs =>
          simp only [trees, List.zip_cons_cons, svMap] at hb
          obtain ⟨p, ps, h1, h2, rfl⟩ := consO_some hb
          obtain ⟨c, d, h3, h4, rfl⟩ := bindMap_some h1
          obtain ⟨h5, h6⟩ := ihm vs ps (by simpa using hl) h2
          exact ⟨by simp [trees, h3, h5], by simp [trees, h4, h6]⟩
    have h1 := key ks vs _ hl ha
    have h2 := key ks' vs' _ hl' hb
    simp only [blank]
    rw [list ks ks' _ h1.1 h2.1 fun i x y s e1 e2 => ihk hk.1 x y (hxk x (List.mem_of_getElem? e1)) (hyk y (List.mem_of_getElem? e2)) s,
      list vs vs' _ h1.2 h2.2 fun i x y s e1 e2 => ih hk.2 x y (hxv x (List.mem_of_getElem? e1)) (hyv y (List.mem_of_getElem? e2)) s]
  | unitStruct n a =>
    cases x <;> first | exact (show False from hx).elim | skip
    cases y <;> first | exact (show False from hy).elim | skip
    rw [hx.1, hx.2, hy.1, hy.2]
  | newtype n a b t ih =>
    cases x <;> first | exact (show False from hx).elim | skip
    cases y <;> first | exact (show False from hy).elim | skip
    rename_i v _ _ _ w
    obtain ⟨rfl, rfl, rfl, hx⟩ := hx
    obtain ⟨rfl, rfl, rfl, hy⟩ := hy
    simp only [tree] at h h'
    split at h
    · rename_i hb
      rw [if_pos hb] at h'
      simp only [blank]
      rw [ih hk v w hx hy s h h']
    · rename_i hb
      rw [if_neg hb] at h'
      simp only [svOf] at h h'
      split at h
      · rename_i ht
        rw [if_pos ht] at h'
        simp only [Option.map_eq_some_iff] at h h'
        obtain ⟨a, ha, rfl⟩ := h
        obtain ⟨b, hb, e⟩ := h'
        cases e
        simp only [blank]
        rw [ih hk v w hx hy a ha hb]
      · rename_i ht
        rw [if_neg ht] at h'
        obtain ⟨_, a, _, ha, rfl⟩ := bindMap_some h
        obtain ⟨_, b, _, hb, e⟩ := bindMap_some h'
        cases e
        simp only [blank]
        rw [ih hk v w hx hy a ha hb]
  | struct b n a fs ts ih =>
    cases x <;> first | exact (show False from hx).elim | skip
    cases y <;> first | exact (show False from hy).elim | skip
    obtain ⟨rfl, rfl, rfl, rfl, ho, hx⟩ := hx
    obtain ⟨rfl, rfl, rfl, rfl, ho', hy⟩ := hy
    simp only [blank]
    rw [rows_svTold ho.2.2 ho'.2.2 (struct_sv h) (struct_sv h') fun i x y s e1 e2 => ih i (hk i) x y (hx i x e1) (hy i y e2) s]
  | enum d ts ih =>
    cases x <;> first | exact (show False from hx).elim | skip
    cases y <;> first | exact (show False from hy).elim | skip
    rename_i i xs _ i' ys
    obtain ⟨rfl, ⟨v, hv, ho⟩, hx⟩ := hx
    obtain ⟨rfl, ⟨v', hv', ho'⟩, hy⟩ := hy
    obtain ⟨hd, hu, ht⟩ := hk
    have hlx : okVariant v (trees xs).length := by rw [trees_eq, List.length_map]; exact ho
    have hly : okVariant v' (trees ys).length := by rw [trees_eq, List.length_map]; exact ho'
    simp only [tree, hv, hv', hd, Bool.false_eq_true, if_false, svOf, Option.bind_eq_some_iff] at h h'
    obtain ⟨name, hn, h⟩ := h
    obtain ⟨name', hn', h'⟩ := h'
    rw [hn] at hn'
    cases hn'
    have hi : i = i' := by
      obtain ⟨p, h1, h2⟩ := variant_sv hd hlx h
      obtain ⟨p', h1', h2'⟩ := variant_sv hd hly h'
      rw [h1] at h1'
      cases h1'
      obtain ⟨e1, e2⟩ := variantOf_which h2 h2'
      exact hu i i' v v' hv hv' ⟨_, ho⟩ ⟨_, ho'⟩ e1 e2
    subst hi
    rw [hv] at hv'
    cases hv'
    simp only [blank, hv, Option.map_some, Option.getD_some]
    rw [variant_svTold hd ho ho' h h' fun n x y s e1 e2 => ih i n (ht i n) x y (hx n x e1) (hy n y e2) s]

end Ty

/-- C105 for serde, exactly: no serializer can tell two values of a type apart if and only if they are the same but for skipped fields.
The depth is how far values in values are followed, as for C79. -/
theorem C105_serializers_exact (ty : Ty) (hk : ty.toldSerde) (x y : RV) (hx : ty.has x) (hy : ty.has y) (px : plain x) (py : plain y) :
    (∀ (τ : Type) (S : SCall Unit τ → τ → Res Unit τ), ∃ N, ∀ d ≥ N, ∀ s,
      serialize () S d (prog (items x)) s = serialize () S d (prog (items y)) s) ↔ blank x = blank y := by
  obtain ⟨a, ha⟩ := (C79_iff (tree x)).1 (serializable_tree x (ty.has_ok x hx) px)
  obtain ⟨b, hb⟩ := (C79_iff (tree y)).1 (serializable_tree y (ty.has_ok y hy) py)
  have key : ∀ (x : RV) (a : SV), ok x → svOf (tree x) = some a →
      ∀ (τ : Type) (S : SCall Unit τ → τ → Res Unit τ), ∃ N, ∀ d ≥ N, ∀ s, serialize () S d (prog (items x)) s = ser S a s := by
    intro x a hx ha τ S
    obtain ⟨N, hN⟩ := Serde.serialize_shows () S (emits x hx).shows (by rw [Nested.supported_seen]; exact supported_tree x hx)
    exact ⟨N, fun d hd s => by rw [hN d hd s, (Serde.serV_seen () S _).1, (Serde.serV_svOf S _).1 a ha]⟩
  constructor
  · intro h
    let R : Token → List Token → List Token × Bool := recorder fun _ _ => true
    obtain ⟨N, hN⟩ := key x a (ty.has_ok x hx) ha _ (Serde.stream R)
    obtain ⟨M, hM⟩ := key y b (ty.has_ok y hy) hb _ (Serde.stream R)
    obtain ⟨d, he⟩ := h _ (Serde.stream R)
    have e := he (max d (max N M)) (by omega) { s := [], w := .base }
    rw [hN _ (by omega), hM _ (by omega)] at e
    have ea := C86_serializer R a false []
    have eb := C86_serializer R b false []
    simp only [Bool.false_eq_true, if_false] at ea eb
    rw [e, eb, Option.some.injEq, exec_toks, exec_toks] at ea
    have hr : ∀ (ts h : List Token), calls R ts h = (h ++ ts, true) := by
      intro ts
      induction ts with
      | nil => simp [calls]
      | cons t ts ih => intro h; simp [calls, R, recorder, ih]
    rw [hr, hr, List.nil_append, List.nil_append] at ea
    have et := congrArg svOf (toks_inj (congrArg Prod.fst ea))
    rw [svOf_serde, svOf_serde, (asText_svOf _).1 a ha, (asText_svOf _).1 b hb, Option.some.injEq] at et
    exact ty.sv_told hk x y hx hy a ha (et ▸ hb)
  · intro h τ S
    obtain ⟨N, hN⟩ := key x b (ty.has_ok x hx) (by rw [← tree_blank x, h, tree_blank y, hb]) _ S
    obtain ⟨M, hM⟩ := key y b (ty.has_ok y hy) hb _ S
    exact ⟨max N M, fun d hd s => by rw [hN d (by omega), hM d (by omega)]⟩

/-- No serializer can tell `y` of `struct P { x: bool, #[sval(skip)] y: bool }`, and some can tell `x`. -/
example (x y x' y' : Bool) :
    let p (x y : Bool) : RV := .struct true (t! "P") {} [{ ident := some (t! "x") }, { ident := some (t! "y"), skip := true }] [.bool x, .bool y]
    (∀ (τ : Type) (S : SCall Unit τ → τ → Res Unit τ), ∃ N, ∀ d ≥ N, ∀ s,
      serialize () S d (prog (items (p x y))) s = serialize () S d (prog (items (p x' y'))) s) ↔ x = x' := by
  intro p
  have hp : ∀ x y, (Ty.struct true (t! "P") {} [{ ident := some (t! "x") }, { ident := some (t! "y"), skip := true }] fun _ => .bool).has (p x y) := by
    intro x y
    refine ⟨rfl, rfl, rfl, rfl, ⟨rfl, ?_, rfl⟩, ?_⟩
    · intro f hf
      simp only [List.mem_cons, List.not_mem_nil, or_false] at hf
      rcases hf with rfl | rfl <;> exact .inr rfl
    · rintro (_ | _ | i) v hv <;> cases hv <;> trivial
  have hf : plainFields [{ ident := some (t! "x") }, { ident := some (t! "y"), skip := true }] := by
    intro f hf
    simp only [List.mem_cons, List.not_mem_nil, or_false] at hf
    rcases hf with rfl | rfl
    · exact .inr ⟨rfl, trivial⟩
    · exact .inl rfl
  rw [C105_serializers_exact (.struct true _ {} _ fun _ => .bool) (fun _ => trivial) _ _ (hp x y) (hp x' y') ⟨trivial, hf, trivial, trivial, trivial⟩
    ⟨trivial, hf, trivial, trivial, trivial⟩]
  simp [p, blank, blanks]

end Sval
