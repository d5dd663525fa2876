import Verif.Nested.Tree

set_option autoImplicit false

/-!
# What a recursive stream sees all the way down
-/

namespace Sval.Nested

theorem Variant.imp {R R' : Arg → V → Prop} {X : List Cb} {v : V} (h : Variant R X v) (hs : supported v = true)
    (hR : ∀ a w, sizeOf w < sizeOf v → supported w = true → R a w → R' a w) : Variant R' X v := by
  induction h with
  | tag m => exact .tag m
  | tagged m a v h => exact .tagged m a v (hR a v (by simp; omega) hs h)
  | tuple m n L h =>
    refine .tuple m n L fun x hx => hR _ _ ?_ (mem_supportedTup hs _ (List.mem_map_of_mem hx)) (h x hx)
    have := List.sizeOf_lt_of_mem (List.mem_map_of_mem (f := fun x : Option Tag × Index × Arg × V => (x.1, x.2.1, x.2.2.2)) hx)
    simp at this ⊢
    omega
  | record m n L h =>
    refine .record m n L fun x hx => hR _ _ ?_ (mem_supportedRec hs _ (List.mem_map_of_mem hx)) (h x hx)
    have := List.sizeOf_lt_of_mem (List.mem_map_of_mem (f := fun x : Option Tag × Label × Arg × V => (x.1, x.2.1, x.2.2.2)) hx)
    simp at this ⊢
    omega
  | nested m X v h ih =>
    refine .nested m X v (ih ?_ fun a w hw => hR a w (by simp; omega))
    simp only [supported, Bool.and_eq_true] at hs
    exact hs.2

theorem Opened.imp {R R' : Arg → V → Prop} {X : List Cb} {v : V} (h : Opened R X v) (hs : supported v = true)
    (hR : ∀ a w, sizeOf w < sizeOf v → supported w = true → R a w → R' a w) : Opened R' X v := by
  cases h with
  | null => exact .null
  | bool b => exact .bool b
  | int t v => exact .int t v
  | f32 b => exact .f32 b
  | f64 b => exact .f64 b
  | text b s => exact .text b s
  | binary b s => exact .binary b s
  | tag m => exact .tag m
  | tagged m a v h => exact .tagged m a v (hR a v (by simp; omega) hs h)
  | seq n L h =>
    refine .seq n L fun x hx => hR _ _ ?_ (mem_supportedSeq hs _ (List.mem_map_of_mem hx)) (h x hx)
    have := List.sizeOf_lt_of_mem (List.mem_map_of_mem (f := fun x : Arg × V => x.2) hx)
    simp at this ⊢
    omega
  | map n L h1 h2 =>
    refine .map n L (fun x hx => hR _ _ ?_ (mem_supportedMap hs _ (List.mem_map_of_mem hx)).1 (h1 x hx))
      (fun x hx => hR _ _ ?_ (mem_supportedMap hs _ (List.mem_map_of_mem hx)).2 (h2 x hx)) <;>
    · have := List.sizeOf_lt_of_mem (List.mem_map_of_mem (f := fun x : (Arg × V) × (Arg × V) => (x.1.2, x.2.2)) hx)
      simp at this ⊢
      omega
  | tuple m n L h =>
    refine .tuple m n L fun x hx => hR _ _ ?_ (mem_supportedTup hs _ (List.mem_map_of_mem hx)) (h x hx)
    have := List.sizeOf_lt_of_mem (List.mem_map_of_mem (f := fun x : Option Tag × Index × Arg × V => (x.1, x.2.1, x.2.2.2)) hx)
    simp at this ⊢
    omega
  | record m n L h =>
    refine .record m n L fun x hx => hR _ _ ?_ (mem_supportedRec hs _ (List.mem_map_of_mem hx)) (h x hx)
    have := List.sizeOf_lt_of_mem (List.mem_map_of_mem (f := fun x : Option Tag × Label × Arg × V => (x.1, x.2.1, x.2.2.2)) hx)
    simp at this ⊢
    omega
  | enum m X v h =>
    simp only [supported, Bool.and_eq_true] at hs
    exact .enum m X v (h.imp hs.2 fun a w hw => hR a w (by simp; omega))

theorem Variant.weaken {R R' : Arg → V → Prop} {X : List Cb} {v : V} (h : Variant R X v)
    (hR : ∀ a w, R a w → R' a w) : Variant R' X v := by
  induction h with
  | tag m => exact .tag m
  | tagged m a v h => exact .tagged m a v (hR a v h)
  | tuple m n L h => exact .tuple m n L fun x hx => hR _ _ (h x hx)
  | record m n L h => exact .record m n L fun x hx => hR _ _ (h x hx)
  | nested m X v h ih => exact .nested m X v ih

theorem Opened.weaken {R R' : Arg → V → Prop} {X : List Cb} {v : V} (h : Opened R X v)
    (hR : ∀ a w, R a w → R' a w) : Opened R' X v := by
  cases h with
  | null => exact .null
  | bool b => exact .bool b
  | int t v => exact .int t v
  | f32 b => exact .f32 b
  | f64 b => exact .f64 b
  | text b s => exact .text b s
  | binary b s => exact .binary b s
  | tag m => exact .tag m
  | tagged m a v h => exact .tagged m a v (hR a v h)
  | seq n L h => exact .seq n L fun x hx => hR _ _ (h x hx)
  | map n L h1 h2 => exact .map n L (fun x hx => hR _ _ (h1 x hx)) (fun x hx => hR _ _ (h2 x hx))
  | tuple m n L h => exact .tuple m n L fun x hx => hR _ _ (h x hx)
  | record m n L h => exact .record m n L fun x hx => hR _ _ (h x hx)
  | enum m X v h => exact .enum m X v (h.weaken hR)

theorem sees_shows (n : Nat) : ∀ (k : Nat) (a : Arg) (q : List Item) (v : V), sizeOf v ≤ n → size q ≤ k →
    a.prog = prog q → Shows q v → supported v = true → Sees a v := by
  induction n with
  | zero => intro _ _ _ v hn; cases v <;> simp at hn
  | succ n ihn =>
    intro k
    induction k with
    | zero =>
      intro a q v _ hk _ h
      exfalso
      cases h <;> simp [size, Item.size] at hk
    | succ k ihk =>
      intro a q v hn hk ha h hs
      rcases makes_any h (rootOk_of_supported hs) (!a.borrowed) with ⟨X, hX, hm⟩ | ⟨b, r, h1, h2, h3, hm⟩
      · rw [← ha] at hm
        refine .mk a X v hm (hX.imp hs ?_)
        intro b w hw hsw hb
        obtain ⟨r, hr, hb⟩ := hb
        exact ihn (size r) b r w (by omega) (Nat.le_refl _) hr hb hsw
      · rw [← ha] at hm
        exact .on a b v hm (ihk b r v hn (by omega) h1 h2 hs)

theorem sees {a : Arg} {q : List Item} {v : V} (ha : a.prog = prog q) (h : Shows q v) (hs : supported v = true) :
    Sees a v := sees_shows _ _ a q v (Nat.le_refl _) (Nat.le_refl _) ha h hs

/-! ## Values -/

def itoks (v : V) : List Item := (toks v).map .tok

theorem shows_toks (v : V) : Shows ((toks v).map .tok) (seen v) := by
  induction v using V.ind with
  | null => exact .null
  | bool b => exact .bool b
  | int t v => exact .int t v
  | f32 b => exact .f32 b
  | f64 b => exact .f64 b
  | text n fs => simpa [toks, seen] using Shows.text n fs
  | binary n fs => simpa [toks, seen] using Shows.binary n fs
  | tag m => exact .tag m
  | tagged m v ih => simpa [toks, seen] using Shows.tagged m _ _ ih
  | enum m v ih => simpa [toks, seen] using Shows.enum m _ _ ih
  | hint t v ih => exact Shows.hint t _ _ ih
  | seq n xs ih =>
    have h := Shows.seq n (xs.map fun x => (itoks x, seen x)) 
      (fun y hy => by obtain ⟨x, hx, rfl⟩ := List.mem_map.1 hy; exact ih x hx)
    have e1 : (toksSeq xs).map Item.tok = (xs.map fun x => (itoks x, seen x)).flatMap fun x =>
        .tok .seqValueBegin :: (x.1 ++ [.tok .seqValueEnd]) := by
      clear ih h; induction xs with
      | nil => rfl
      | cons x xs ih => simp [toksSeq, ih, itoks]
    have e2 : seenSeq xs = (xs.map fun x => (itoks x, seen x)).map (·.2) := by
      clear ih h e1; induction xs with
      | nil => rfl
      | cons x xs ih => simp [seenSeq, ih]
    rw [← e1, ← e2] at h
    simpa [toks, seen] using h
  | map n xs ih =>
    have h := Shows.map n (xs.map fun x => ((itoks x.1, seen x.1), (itoks x.2, seen x.2)))
      (fun y hy => by obtain ⟨x, hx, rfl⟩ := List.mem_map.1 hy; exact (ih x hx).1)
      (fun y hy => by obtain ⟨x, hx, rfl⟩ := List.mem_map.1 hy; exact (ih x hx).2)
    have e1 : (toksMap xs).map Item.tok = (xs.map fun x => ((itoks x.1, seen x.1), (itoks x.2, seen x.2))).flatMap fun x =>
      .tok .mapKeyBegin :: (x.1.1 ++ [.tok .mapKeyEnd]) ++
      .tok .mapValueBegin :: (x.2.1 ++ [.tok .mapValueEnd]) := by
      clear ih h; induction xs with
      | nil => rfl
      | cons x xs ih => obtain ⟨k, v⟩ := x; simp [toksMap, ih, itoks]
    have e2 : seenMap xs = (xs.map fun x => ((itoks x.1, seen x.1), (itoks x.2, seen x.2))).map fun x => (x.1.2, x.2.2) := by
      clear ih h e1; induction xs with
      | nil => rfl
      | cons x xs ih => obtain ⟨k, v⟩ := x; simp [seenMap, ih]
    rw [← e1, ← e2] at h
    simpa [toks, seen] using h
  | record m n xs ih =>
    have h := Shows.record m n (xs.map fun x => (x.1, x.2.1, itoks x.2.2, seen x.2.2)) 
      (fun y hy => by obtain ⟨x, hx, rfl⟩ := List.mem_map.1 hy; exact ih x hx)
    have e1 : (toksRec xs).map Item.tok = (xs.map fun x => (x.1, x.2.1, itoks x.2.2, seen x.2.2)).flatMap fun x =>
        .tok (.recordValueBegin x.1 x.2.1) :: (x.2.2.1 ++ [.tok (.recordValueEnd x.1 x.2.1)]) := by
      clear ih h; induction xs with
      | nil => rfl
      | cons x xs ih => obtain ⟨k, l, v⟩ := x; simp [toksRec, ih, itoks]
    have e2 : seenRec xs = (xs.map fun x => (x.1, x.2.1, itoks x.2.2, seen x.2.2)).map fun x => (x.1, x.2.1.toOwned, x.2.2.2) := by
      clear ih h e1; induction xs with
      | nil => rfl
      | cons x xs ih => obtain ⟨k, l, v⟩ := x; simp [seenRec, ih]
    rw [← e1, ← e2] at h
    simpa [toks, seen] using h
  | tuple m n xs ih =>
    have h := Shows.tuple m n (xs.map fun x => (x.1, x.2.1, itoks x.2.2, seen x.2.2)) 
      (fun y hy => by obtain ⟨x, hx, rfl⟩ := List.mem_map.1 hy; exact ih x hx)
    have e1 : (toksTup xs).map Item.tok = (xs.map fun x => (x.1, x.2.1, itoks x.2.2, seen x.2.2)).flatMap fun x =>
        .tok (.tupleValueBegin x.1 x.2.1) :: (x.2.2.1 ++ [.tok (.tupleValueEnd x.1 x.2.1)]) := by
      clear ih h; induction xs with
      | nil => rfl
      | cons x xs ih => obtain ⟨k, l, v⟩ := x; simp [toksTup, ih, itoks]
    have e2 : seenTup xs = (xs.map fun x => (x.1, x.2.1, itoks x.2.2, seen x.2.2)).map fun x => (x.1, x.2.1, x.2.2.2) := by
      clear ih h e1; induction xs with
      | nil => rfl
      | cons x xs ih => obtain ⟨k, l, v⟩ := x; simp [seenTup, ih]
    rw [← e1, ← e2] at h
    simpa [toks, seen] using h
  | recordTuple m n xs ih =>
    have h := Shows.recordTuple m n (xs.map fun x => (x.1, x.2.1, x.2.2.1, itoks x.2.2.2, seen x.2.2.2)) 
      (fun y hy => by obtain ⟨x, hx, rfl⟩ := List.mem_map.1 hy; exact ih x hx)
    have e1 : (toksRT xs).map Item.tok = (xs.map fun x => (x.1, x.2.1, x.2.2.1, itoks x.2.2.2, seen x.2.2.2)).flatMap fun x =>
        .tok (.recordTupleValueBegin x.1 x.2.1 x.2.2.1) :: (x.2.2.2.1 ++ [.tok (.recordTupleValueEnd x.1 x.2.1 x.2.2.1)]) := by
      clear ih h; induction xs with
      | nil => rfl
      | cons x xs ih => obtain ⟨k, l, i, v⟩ := x; simp [toksRT, ih, itoks]
    have e2 : seenRT xs = (xs.map fun x => (x.1, x.2.1, x.2.2.1, itoks x.2.2.2, seen x.2.2.2)).map fun x => (x.1, x.2.1.toOwned, x.2.2.2.2) := by
      clear ih h e1; induction xs with
      | nil => rfl
      | cons x xs ih => obtain ⟨k, l, i, v⟩ := x; simp [seenRT, ih]
    rw [← e1, ← e2] at h
    simpa [toks, seen] using h

theorem variant_seen (v : V) : ∀ inner, variant inner (seen v) = variant inner v := by
  induction v using V.ind with
  | enum m v ih => intro inner; exact ih true
  | hint t v ih => intro inner; exact ih inner
  | _ => intro inner; rfl

theorem supported_seen (v : V) : supported (seen v) = supported v := by
  induction v using V.ind with
  | tagged m v ih => exact ih
  | enum m v ih => simp only [seen, supported, ih, variant_seen]
  | hint t v ih => exact ih
  | seq n xs ih =>
    simp only [seen, supported]
    induction xs with
    | nil => rfl
    | cons x xs ih' =>
      simp only [seenSeq, supportedSeq, ih x (.head _), ih' fun y hy => ih y (.tail _ hy)]
  | map n xs ih =>
    simp only [seen, supported]
    induction xs with
    | nil => rfl
    | cons x xs ih' =>
      simp only [seenMap, supportedMap, (ih x (.head _)).1, (ih x (.head _)).2, ih' fun y hy => ih y (.tail _ hy)]
  | record m n xs ih =>
    simp only [seen, supported]
    induction xs with
    | nil => rfl
    | cons x xs ih' =>
      simp only [seenRec, supportedRec, ih x (.head _), ih' fun y hy => ih y (.tail _ hy)]
  | tuple m n xs ih =>
    simp only [seen, supported]
    induction xs with
    | nil => rfl
    | cons x xs ih' =>
      simp only [seenTup, supportedTup, ih x (.head _), ih' fun y hy => ih y (.tail _ hy)]
  | recordTuple m n xs ih =>
    simp only [seen, supported]
    induction xs with
    | nil => rfl
    | cons x xs ih' =>
      simp only [seenRT, supportedRec, supportedRT, ih x (.head _), ih' fun y hy => ih y (.tail _ hy)]
  | _ => rfl

end Sval.Nested
