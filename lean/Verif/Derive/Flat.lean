import Verif.Derive.FlatSpec
import Verif.Props.Flatten
import Verif.Props.Rust

set_option autoImplicit false

/-! # Derived types with flattened fields stream what they are meant to -/

namespace Sval.Derive

open Nested (Item)

/-- The code makes the calls of the value. -/
def Streams (x : Streamer) (ts : List Token) : Prop :=
  ∀ (σ : Type) (S : Token → σ → Res Unit σ) (s : σ), x σ S s = (Sval.run S ts s).outcome

theorem streams_run (q : List Item) : Streams (run q) (Nested.flat q false) := by
  intro σ S s
  have h : ∀ ts : List Token, Nested.prog (ts.map .tok) = .ofToks ts := by
    intro ts
    induction ts with
    | nil => rfl
    | cons t ts ih =>
      rw [List.map_cons, Nested.prog, ih, Nested.Item.prog, Prog.ofToks]
      congr 1
  rw [← drive_ofToks, ← h]
  have e1 := Serde.exec_calls (guarded S) q false (s, false)
  have e2 := Serde.exec_calls (guarded S) ((Nested.flat q false).map .tok) false (s, false)
  rw [Emits.flat_toks] at e2
  have e3 := e1.trans e2.symm
  unfold run drive
  exact congrArg (fun r : (σ × Bool) × Bool => if r.1.2 then Outcome.panicked else Outcome.done r.2 r.1.1) e3

theorem streams_tok (t : Token) : Streams (run [.tok t]) [t] := streams_run [.tok t]

theorem Streams.then {x y : Streamer} {ts us : List Token} (hx : Streams x ts) (hy : Streams y us) :
    Streams (x.then y) (ts ++ us) := by
  intro σ S s
  rw [Streamer.then, hx, run_append]
  cases h : Sval.run S ts s with
  | ok s' => exact hy σ S s'
  | err e s' => rfl
  | panic => rfl

/-- The calls are made until one fails, and then `n` is returned. -/
def Ran {σ : Type} (S : Token → σ → Res Unit σ) (X : List Token) (s : σ) (n : Int) (o : Outcome (σ × Int)) : Prop :=
  match Sval.run S X s with
  | .ok s' => o = .done true (s', n)
  | .err _ s' => ∃ k, o = .done false (s', k)
  | .panic => o = .panicked

theorem Ran.append {σ : Type} {S : Token → σ → Res Unit σ} {X Y : List Token} {s : σ} {n m : Int} {o : Outcome (σ × Int)}
    {f : σ × Int → Outcome (σ × Int)} (h : Ran S X s n o) (hf : ∀ s', Ran S Y s' m (f (s', n))) :
    Ran S (X ++ Y) s m (andThen o id f) := by
  unfold Ran at h ⊢
  rw [run_append]
  cases hr : Sval.run S X s with
  | ok s' => rw [hr] at h; simp only at h; rw [h]; exact hf s'
  | err e s' => rw [hr] at h; obtain ⟨k, h⟩ := h; rw [h]; exact ⟨k, rfl⟩
  | panic => rw [hr] at h; simp only at h; rw [h]; rfl

theorem Ran.index {σ : Type} {S : Token → σ → Res Unit σ} {X : List Token} {s : σ} {n : Int} {o : Outcome (σ × Int)}
    (h : Ran S X s n o) (m : Int) : Ran S X s m (andThen o (fun r => (r.1, m)) fun r => .done true (r.1, m)) := by
  unfold Ran at h ⊢
  cases hr : Sval.run S X s with
  | ok s' => rw [hr] at h; simp only at h; rw [h]; rfl
  | err e s' => rw [hr] at h; obtain ⟨k, h⟩ := h; rw [h]; exact ⟨m, rfl⟩
  | panic => rw [hr] at h; simp only at h; rw [h]; rfl

theorem Streams.ran {x : Streamer} {ts : List Token} (h : Streams x ts) {σ : Type} (S : Token → σ → Res Unit σ) (s : σ)
    (n m : Int) : Ran S ts s m (andThen (x σ S s) (fun s => (s, n)) fun s => .done true (s, m)) := by
  unfold Ran
  rw [h]
  cases hr : Sval.run S ts s with
  | ok s' => rfl
  | err e s' => exact ⟨n, rfl⟩
  | panic => rfl

section
variable (ryu : UInt64 → Text)

/-- The label kept for a key. -/
def keyText (k : V) : Text := Flatten.kept (Flatten.pieces ryu k)

theorem flattens_ran (kind : Flatten.Kind) {x : Streamer} {v : V} (hx : Streams x (toks v)) (n : Int) (hv : flattens n v)
    {σ : Type} (S : Token → σ → Res Unit σ) (s : σ) :
    Ran S (Flatten.entryToks kind (keyText ryu) (Flatten.number n n (Flatten.entries v)).1) s
      (Flatten.number n n (Flatten.entries v)).2 (flattenWith true ryu kind S x n s) := by
  obtain ⟨h1, h2, h3, h4⟩ := hv
  have := C29_partial { kind, alloc := true, ryu } rfl v n h2 h1 (fun _ => h3) h4 σ S s
  have e : flattenWith true ryu kind S x n s = Flatten.flattenTo { kind, alloc := true, ryu } S (valueOf v) n s := by
    unfold flattenWith Flatten.flattenTo
    simp only [valueOf, drive_ofToks]
    rw [hx]
    rfl
  rw [e]
  exact this

/-- The calls of rows, in each kind of struct. -/
def rowToks (lab idx : Bool) (rs : List Row) : List Token :=
  match lab, idx with
  | true, true => toksRT rs
  | false, true => toksTup (rs.map fun r => (r.1, r.2.2.1, r.2.2.2))
  | true, false => toksRec (rs.map fun r => (r.1, r.2.1, r.2.2.2))
  | false, false => toksSeq (rs.map fun r => r.2.2.2)

theorem rowToks_append (lab idx : Bool) (rs rs' : List Row) : rowToks lab idx (rs ++ rs') = rowToks lab idx rs ++ rowToks lab idx rs' := by
  induction rs with
  | nil => cases lab <;> cases idx <;> rfl
  | cons r rs ih =>
    obtain ⟨t, l, i, v⟩ := r
    cases lab <;> cases idx <;> simp_all [rowToks, toksRT, toksRec, toksTup, toksSeq]

theorem rowToks_flat (lab idx : Bool) (K : V → Text) (n : Int) (v : V) :
    rowToks lab idx (flatRows K n v) =
      Flatten.entryToks (flattenKind (targetOf lab idx)) K (Flatten.number n n (Flatten.entries v)).1 := by
  cases lab <;> cases idx <;>
    simp [rowToks, flatRows, targetOf, flattenKind, Flatten.entryToks, Flatten.asRecordTuple, Flatten.asRecord,
      Flatten.asTuple, Flatten.asSeq, Function.comp_def]

theorem streams_value {x : Streamer} {v : V} (hx : Streams x (toks v)) (f : Field) :
    Streams (valueTo f.dataTag x) (toks (data f v)) := by
  unfold valueTo data
  cases f.dataTag with
  | none => exact hx
  | some t =>
    have := (streams_tok (.taggedBegin { tag := some t })).then (hx.then (streams_tok (.taggedEnd { tag := some t })))
    simpa [toks] using this

theorem streams_field {x : Streamer} {v : V} (hx : Streams x (toks v)) (f : Field) (n : Int) (p : Plan) (lab idx : Bool)
    (i : Index) (hlab : p.label = if lab then some (name f) else none) (hidx : idx = p.slot.isSome)
    (hi : ∀ s, p.slot = some s → s.at n = i) (ht : p.tag = f.tag) (hd : p.dataTag = f.dataTag) :
    Streams (fieldTo n p x) (rowToks lab idx [(f.tag, name f, i, data f v)]) := by
  have h := (streams_tok (fieldCalls n p).1).then ((streams_value hx f).then (streams_tok (fieldCalls n p).2))
  rw [← hd] at h
  have e : [(fieldCalls n p).1] ++ (toks (data f v) ++ [(fieldCalls n p).2]) = rowToks lab idx [(f.tag, name f, i, data f v)] := by
    subst hidx
    unfold fieldCalls
    rw [hlab]
    cases hs : p.slot with
    | none => cases lab <;> simp [rowToks, toksRec, toksSeq, ht]
    | some s =>
      have := hi s hs
      cases lab <;> simp [rowToks, toksRT, toksTup, ht, this]
  rw [← e]
  exact h

theorem streams_fields (at' : Attrs) (lab idx : Bool) (hidx : idx = !at'.unindexed) (fs : List Field) (xs : List FV)
    (hlen : fs.length = xs.length)
    (hx : ∀ x ∈ xs, Streams (stream true ryu x) (toks (ftree (keyText ryu) x)))
    (hlab : ∀ f ∈ fs, f.skip = true ∨ (if at'.unlabeled then none else nameOf f) = if lab then some (name f) else none)
    (a : Alloc) (i : Int) (g : Bool) (ha : at'.unindexed = false → i = a.next ∧ g = a.explicit) (n : Int)
    (hn : idx = false → lab = false → n = 0)
    (hok : rowsOk idx (idx || lab) i g n (rows fs (ftrees (keyText ryu) xs)))
    {σ : Type} (S : Token → σ → Res Unit σ) :
    ∃ m, ∀ s, Ran S (rowToks lab idx (structRows (keyText ryu) idx (idx || lab) i g n
      (rows fs (ftrees (keyText ryu) xs)))) s m (fieldsTo true ryu S n (plans at' a fs) (kept fs (streams true ryu xs)) s) := by
  induction fs generalizing xs a i g n with
  | nil =>
    refine ⟨n, fun s => ?_⟩
    cases xs <;> cases lab <;> cases idx <;> rfl
  | cons f fs ih =>
    match xs, hlen with
    | x :: xs, hlen =>
      have hlen' : fs.length = xs.length := by simpa using hlen
      have ih' := fun a i g ha n hn hok => ih xs hlen' (fun y hy => hx y (.tail _ hy)) (fun y hy => hlab y (.tail _ hy)) a i g ha n hn hok
      rw [ftrees, rows_cons] at hok ⊢
      simp only [streams, kept, plans]
      cases hs : f.skip with
      | true =>
        simp only [hs, if_true] at hok ⊢
        exact ih' a i g ha n hn hok
      | false =>
        simp only [hs, Bool.false_eq_true, if_false] at hok ⊢
        have hl : (if at'.unlabeled then none else nameOf f) = if lab then some (name f) else none := by
          rcases hlab f (.head _) with h | h
          · simp [hs] at h
          · exact h
        rw [optLabelOr_eq, hl]
        have hX := hx x (.head _)
        -- the plan of the field
        generalize hp : Plan.mk f.tag f.dataTag (if lab = true then some (name f) else none)
          (if at'.unindexed = true then none else some (a.nextConst f.index).1) f.flatten = p
        generalize ha' : (if at'.unindexed = true then a else (a.nextConst f.index).2) = a'
        have hnext : at'.unindexed = false → nextIndex i f.index = a'.next ∧ (g || f.index.isSome) = a'.explicit := by
          intro hu
          obtain ⟨h1, h2⟩ := ha hu
          rw [← ha', hu, h1, h2]
          cases f.index with
          | none => simp [Alloc.nextConst, nextIndex]
          | some k => cases k <;> simp [Alloc.nextConst, nextIndex]
        have hpi : idx = p.slot.isSome := by
          rw [hidx, ← hp]
          cases at'.unindexed <;> rfl
        have hpt : p.target = targetOf lab idx := by
          rw [Plan.target, hpi, ← hp]
          cases at'.unindexed <;> cases lab <;> rfl
        rw [rowsOk] at hok
        simp only [structRows, fieldsTo, anyFieldTo]
        have hpf : p.flatten = f.flatten := by rw [← hp]
        rw [hpf]
        cases hf : f.flatten with
        | true =>
          simp only [hf, if_true] at hok ⊢
          obtain ⟨hfl, hok⟩ := hok
          rw [rowToks_append, rowToks_flat]
          have hr := flattens_ran ryu (flattenKind (targetOf lab idx)) hX n hfl S
          obtain ⟨m, hm⟩ := ih' a' (nextIndex i f.index) (g || f.index.isSome) hnext _ (fun h1 h2 => by
            simpa [h1, h2] using hn h1 h2) hok
          refine ⟨m, fun s => Ran.append (n := if (idx || lab) = true then
            (Flatten.number n n (Flatten.entries (ftree (keyText ryu) x))).2 else n) ?_ fun s' => hm s'⟩
          rw [hpt]
          cases lab with
          | true => cases idx <;> exact hr s
          | false =>
            cases idx with
            | true => exact hr s
            | false =>
              have h0 := hn rfl rfl
              subst h0
              exact (hr s).index 0
        | false =>
          simp only [hf, Bool.false_eq_true, if_false] at hok ⊢
          obtain ⟨m, hm⟩ := ih' a' (nextIndex i f.index) (g || f.index.isSome) hnext _ (fun h1 h2 => by
            simpa [h1] using hn h1 h2) hok
          have hfield := streams_field hX f n p lab idx (rowIndex i g n f.index) (by rw [← hp]) hpi (by
            intro sl hsl
            have hu : at'.unindexed = false := by
              cases hu : at'.unindexed with
              | false => rfl
              | true => rw [hpi, hsl] at hidx; simp [hu] at hidx
            obtain ⟨h1, h2⟩ := ha hu
            rw [← hp] at hsl
            simp only [hu, Bool.false_eq_true, if_false, Option.some.injEq] at hsl
            rw [← hsl, h1, h2]
            cases f.index with
            | none => cases he : a.explicit <;> simp [Alloc.nextConst, rowIndex, Slot.at, he]
            | some k => cases k <;> simp [Alloc.nextConst, rowIndex, Slot.at, constIndexOf]) (by rw [← hp]) (by rw [← hp])
          have hafter : p.after n = if (idx && !g && f.index.isNone) = true then n + 1 else n := by
            rw [← hp, hidx, Plan.after]
            cases hu : at'.unindexed with
            | true => simp
            | false =>
              obtain ⟨h1, h2⟩ := ha hu
              rw [h2]
              cases f.index with
              | none => cases he : a.explicit <;> simp [Alloc.nextConst, Slot.after, he]
              | some k => cases k <;> simp [Alloc.nextConst, Slot.after, constIndexOf]
          rw [hafter]
          rw [show ∀ (r : Row) rs, r :: rs = [r] ++ rs from fun _ _ => rfl, rowToks_append]
          exact ⟨m, fun s => Ran.append (hfield.ran S s n _) fun s' => hm s'⟩

theorem streams_eq (xs : List FV) : streams true ryu xs = xs.map (stream true ryu) := by
  induction xs with
  | nil => rfl
  | cons x xs ih => rw [streams, ih]; rfl

theorem ftrees_eq (K : V → Text) (xs : List FV) : ftrees K xs = xs.map (ftree K) := by
  induction xs with
  | nil => rfl
  | cons x xs ih => rw [ftrees, ih]; rfl

theorem foks_iff (K : V → Text) (xs : List FV) : foks K xs ↔ ∀ x ∈ xs, fok K x := by
  induction xs with
  | nil => simp [foks]
  | cons x xs ih => simp [foks, ih]

theorem plans_any (at' : Attrs) (a : Alloc) (fs : List Field) :
    (plans at' a fs).map (·.flatten) = (fs.filter fun f => !f.skip).map (·.flatten) := by
  induction fs generalizing a with
  | nil => rfl
  | cons f fs ih =>
    rw [List.filter_cons]
    cases h : f.skip with
    | true => simpa [plans, h] using ih a
    | false => simp [plans, h, ih]

theorem count_rows (at' : Attrs) (fs : List Field) (vs : List V) (h : fs.length = vs.length) :
    count (plans at' {} fs) = if (rows fs vs).any (·.1.flatten) then none else some (rows fs vs).length := by
  have h1 := plans_any at' {} fs
  rw [← rows_fst fs vs h, List.map_map] at h1
  have h2 : (plans at' {} fs).any (·.flatten) = (rows fs vs).any (·.1.flatten) := by
    have := congrArg (fun l => l.any id) h1
    simpa [List.any_map, Function.comp_def] using this
  have h3 : (plans at' {} fs).length = (rows fs vs).length := by simpa using congrArg List.length h1
  rw [count, h2, h3]

theorem glue (q1 q2 : List Item) (X : List Token) {σ : Type} (S : Token → σ → Res Unit σ) (F : σ → Outcome (σ × Int)) (m : Int)
    (hF : ∀ s, Ran S X s m (F s)) (s : σ) :
    (andThen (run q1 σ S s) id fun s => andThen (F s) (·.1) fun r => run q2 σ S r.1) =
      (Sval.run S (Nested.flat q1 false ++ (X ++ Nested.flat q2 false)) s).outcome := by
  rw [streams_run q1 σ S s, run_append]
  cases Sval.run S (Nested.flat q1 false) s with
  | err e s' => rfl
  | panic => rfl
  | ok s' =>
    simp only [Res.outcome, andThen, Res.bind]
    rw [run_append]
    have := hF s'
    unfold Ran at this
    cases hr : Sval.run S X s' with
    | ok s2 =>
      rw [hr] at this
      simp only at this
      rw [this]
      exact streams_run q2 σ S s2
    | err e s2 =>
      rw [hr] at this
      obtain ⟨k, this⟩ := this
      rw [this]
      rfl
    | panic =>
      rw [hr] at this
      simp only at this
      rw [this]
      rfl

theorem streams_struct (named : Bool) (at' : Attrs) (m : Meta) (fs : List Field) (xs : List FV)
    (hx : ∀ x ∈ xs, Streams (stream true ryu x) (toks (ftree (keyText ryu) x)))
    (hok : structOk named at' fs (ftrees (keyText ryu) xs)) :
    Streams (structTo true ryu named at' m fs (streams true ryu xs))
      (toks (flatTree (keyText ryu) named at' m fs (ftrees (keyText ryu) xs))) := by
  obtain ⟨hacc, hlen, hrows⟩ := hok
  obtain ⟨b, hb⟩ := accepted_uniform at' fs hacc
  have ht := target_eq named at' fs (ftrees (keyText ryu) xs) hlen b hb
  have hcount := count_rows at' fs _ hlen
  have hlen' : fs.length = xs.length := by rw [hlen, ftrees_eq, List.length_map]
  intro σ S s
  generalize hR : rows fs (ftrees (keyText ryu) xs) = R at *
  have hfst := rows_fst fs _ hlen
  rw [hR] at hfst
  obtain ⟨k, hbody⟩ : ∃ k, ∀ s, Ran S (rowToks (labeled named at' R) (indexed at' R) (structRows (keyText ryu) (indexed at' R)
      (indexed at' R || labeled named at' R) 0 false 0 R)) s k
      (fieldsTo true ryu S 0 (plans at' {} fs) (kept fs (streams true ryu xs)) s) := by
    cases hRc : R with
    | nil =>
      have h2 := plans_label at' {} fs
      rw [← hfst, hRc] at h2
      have : plans at' {} fs = [] := by simpa using h2
      rw [this]
      refine ⟨0, fun s => ?_⟩
      cases named <;> rfl
    | cons r R' =>
      have hi : indexed at' R = !at'.unindexed := by rw [hRc]; rfl
      have hl : labeled named at' R = b := by
        rw [← hfst, hRc] at hb
        rw [hRc, ← hb r.1 (.head _)]
        unfold labeled
        cases at'.unlabeled <;> simp
      rw [← hRc]
      have := streams_fields ryu at' (labeled named at' R) (indexed at' R) hi fs xs hlen' hx (by
        intro f hf
        cases hs : f.skip with
        | true => exact .inl rfl
        | false =>
          have h1 := hb f (List.mem_filter.mpr ⟨hf, by simp [hs]⟩)
          rw [hl]
          refine .inr ?_
          cases b with
          | true =>
            cases hu : at'.unlabeled with
            | true => simp [hu] at h1
            | false =>
              simp only [hu, Bool.false_eq_true, if_false] at h1
              simp [nameOf_name _ h1]
          | false =>
            rw [Option.isSome_eq_false_iff, Option.isNone_iff_eq_none] at h1
            simpa using h1) {} 0 false (fun _ => ⟨rfl, rfl⟩) 0 (fun _ _ => rfl) (by rw [hR]; exact hrows) S
      rw [hR] at this
      exact this
  simp only [structTo, ht, hcount, flatTree, hR]
  rw [glue _ _ _ S _ k hbody s]
  congr 2
  cases labeled named at' R <;> cases indexed at' R <;>
    simp [targetOf, beginItems, endItems, Nested.flat_tok_cons, Serde.flat_nil, rowToks, toks]

theorem variant_streams (d : EnumDef) (v : Variant) (sl : Option Slot) (xs : List FV)
    (hx : ∀ x ∈ xs, Streams (stream true ryu x) (toks (ftree (keyText ryu) x)))
    (hok : variantOk v (ftrees (keyText ryu) xs)) :
    Streams (armTo true ryu d v sl (streams true ryu xs))
      (toks (flatVariant (keyText ryu) d v (sl.map Slot.index) (ftrees (keyText ryu) xs))) := by
  unfold variantOk at hok
  simp only [armTo, flatVariant, variantMeta, Rust.variantLabel_eq]
  cases hs : v.shape with
  | unit => exact streams_tok _
  | newtype =>
    rw [hs] at hok
    rw [ftrees_eq, List.length_map] at hok
    match xs, hok with
    | [x], _ =>
      have hx := hx x (.head _)
      simp only [ftrees, streams, List.head?_cons, Option.getD_some]
      cases hd : d.dyn with
      | true => simpa using hx
      | false =>
        have := (streams_tok (.taggedBegin { tag := v.attrs.tag, label := variantName d v, index := sl.map Slot.index })).then
          (hx.then (streams_tok (.taggedEnd { tag := v.attrs.tag, label := variantName d v, index := sl.map Slot.index })))
        simpa [toks] using this
  | named fs =>
    rw [hs] at hok
    exact streams_struct ryu true v.attrs _ fs xs hx hok
  | unnamed fs =>
    rw [hs] at hok
    exact streams_struct ryu false v.attrs _ fs xs hx hok

def FV.parts : FV → List FV
  | .plain _ => []
  | .some v => [v]
  | .slice vs | .struct _ _ _ _ vs | .enum _ _ vs => vs

theorem FV.sizeOf_parts (v : FV) : ∀ w ∈ v.parts, sizeOf w < sizeOf v := by
  intro w hw
  cases v <;> simp only [FV.parts, List.mem_cons, List.not_mem_nil, or_false] at hw
  case some v => subst hw; simp
  case slice xs => have := List.sizeOf_lt_of_mem hw; simp; omega
  case struct xs => have := List.sizeOf_lt_of_mem hw; simp; omega
  case enum xs => have := List.sizeOf_lt_of_mem hw; simp; omega

theorem FV.ind {P : FV → Prop} (h : ∀ v, (∀ w ∈ v.parts, P w) → P v) (v : FV) : P v := by
  suffices ∀ n v, sizeOf v ≤ n → P v from this _ v (Nat.le_refl _)
  intro n
  induction n with
  | zero => intro v hv; cases v <;> simp at hv
  | succ n ih =>
    intro v hv
    refine h v fun w hw => ih w ?_
    have := FV.sizeOf_parts v w hw
    omega

theorem streams_elems (xs : List FV) (hx : ∀ x ∈ xs, Streams (stream true ryu x) (toks (ftree (keyText ryu) x))) :
    Streams (elemsTo (streams true ryu xs)) (toksSeq (ftrees (keyText ryu) xs)) := by
  induction xs with
  | nil => exact streams_run []
  | cons x xs ih =>
    have := (streams_tok .seqValueBegin).then ((hx x (.head _)).then ((streams_tok .seqValueEnd).then
      (ih fun y hy => hx y (.tail _ hy))))
    simpa [streams, elemsTo, ftrees, toksSeq] using this

/-- Values with flattened fields stream what they are meant to. -/
theorem streams_value_flat (x : FV) (hok : fok (keyText ryu) x) :
    Streams (stream true ryu x) (toks (ftree (keyText ryu) x)) := by
  induction x using FV.ind with | h x ih => ?_
  cases x with
  | plain v =>
    have := streams_run (Rust.items v)
    rw [(Rust.emits v hok).calls false] at this
    exact this
  | some v =>
    have := (streams_tok (.taggedBegin Serde.someMeta)).then ((ih v (.head _) hok).then (streams_tok (.taggedEnd Serde.someMeta)))
    have e : Rust.variant tags.RUST_OPTION_SOME (t! "Some") 1 = Serde.someMeta := rfl
    simpa [stream, ftree, toks, e] using this
  | slice vs =>
    rw [fok, foks_iff] at hok
    have := (streams_tok (.seqBegin (some vs.length))).then ((streams_elems ryu vs fun x h => ih x h (hok x h)).then (streams_tok .seqEnd))
    simpa [stream, ftree, toks] using this
  | struct named ident at' fs vs =>
    rw [fok, foks_iff] at hok
    have := streams_struct ryu named at' (structMeta ident at') fs vs (fun x h => ih x h (hok.2 x h)) hok.1
    simpa [stream, ftree, structMeta, Rust.attrIndex_eq] using this
  | enum d i vs =>
    rw [fok, foks_iff] at hok
    obtain ⟨⟨v, hv, hvok⟩, hok⟩ := hok
    have hlt := (List.getElem?_eq_some_iff.mp hv).1
    have hsl : (variantSlots d {} d.variants)[i]? = some ((variantSlots d {} d.variants)[i]'(by
      rw [Rust.variantSlots_length]; exact hlt)) := List.getElem?_eq_getElem _
    generalize (variantSlots d {} d.variants)[i]'(by rw [Rust.variantSlots_length]; exact hlt) = sl at hsl
    have hidx : (Rust.variantIndexes d d.variants)[i]? = some (sl.map Slot.index) := by
      have := Rust.slots_eq d d.variants {}
      rw [Rust.variantIndexes, ← this, List.getElem?_map, hsl]
      rfl
    have := variant_streams ryu d v sl vs (fun x h => ih x h (hok x h)) hvok
    simp only [stream, ftree, enumTo, hv, hsl, hidx, Option.getD_some]
    cases d.dyn with
    | true => simpa using this
    | false =>
      have := (streams_tok (.enumBegin (enumMeta d))).then (this.then (streams_tok (.enumEnd (enumMeta d))))
      simpa [toks, enumMeta, Rust.attrIndex_eq] using this
end

/-! ## Rows -/

/-- The values of a field: those of its entries if it is flattened. -/
def contents (r : Field × V) : List V :=
  if r.1.flatten then (Flatten.entries r.2).map (·.val) else [data r.1 r.2]

theorem structRows_values (K : V → Text) (c fc : Bool) (i : Int) (g : Bool) (n : Int) (rs : List (Field × V)) :
    (structRows K c fc i g n rs).map (fun r => r.2.2.2) = rs.flatMap contents := by
  induction rs generalizing i g n with
  | nil => rfl
  | cons r rs ih =>
    obtain ⟨f, v⟩ := r
    rw [structRows, List.flatMap_cons, contents]
    cases f.flatten with
    | true =>
      simp only [if_true, List.map_append, ih, flatRows, List.map_map]
      congr 1
      have := congrArg (List.map (fun e : Flatten.Entry => e.val)) (C28_count n v)
      simpa [Function.comp_def] using this
    | false => simp [ih]

theorem entries_sized (v : V) (h : Rust.sized v) :
    (∀ e ∈ Flatten.entries v, Rust.sized e.val) ∧ (∀ e ∈ Flatten.variantEntries v, Rust.sized e.val) := by
  induction v using V.ind with
  | seq n xs _ =>
    rw [Rust.sized, Rust.sizedSeq_iff] at h
    constructor <;>
    · intro e he
      obtain ⟨x, hx, rfl⟩ := List.mem_map.mp he
      exact h.2 x hx
  | map n kvs _ =>
    rw [Rust.sized, Rust.sizedMap_iff] at h
    constructor <;>
    · intro e he
      obtain ⟨x, hx, rfl⟩ := List.mem_map.mp he
      exact (h.2 x hx).2
  | record m n fs _ =>
    rw [Rust.sized, Rust.sizedRec_iff] at h
    constructor <;>
    · intro e he
      obtain ⟨x, hx, rfl⟩ := List.mem_map.mp he
      exact h.2 x hx
  | tuple m n fs _ =>
    rw [Rust.sized, Rust.sizedTup_iff] at h
    constructor <;>
    · intro e he
      obtain ⟨x, hx, rfl⟩ := List.mem_map.mp he
      exact h.2 x hx
  | recordTuple m n fs _ =>
    rw [Rust.sized, Rust.sizedRT_iff] at h
    constructor <;>
    · intro e he
      obtain ⟨x, hx, rfl⟩ := List.mem_map.mp he
      exact h.2 x hx
  | tagged m v ih =>
    refine ⟨(ih h).1, fun e he => ?_⟩
    simp only [Flatten.variantEntries, List.mem_singleton] at he
    subst he
    exact h
  | enum m v ih => exact ⟨(ih h).2, (ih h).2⟩
  | hint t v ih => exact ih h
  | _ => exact ⟨fun e he => (by cases he), fun e he => (by cases he)⟩

theorem sized_contents (r : Field × V) (h : Rust.sized r.2) : ∀ v ∈ contents r, Rust.sized v := by
  intro v hv
  unfold contents at hv
  split at hv
  · obtain ⟨e, he, rfl⟩ := List.mem_map.mp hv
    exact (entries_sized _ h).1 e he
  · simp only [List.mem_singleton] at hv
    subst hv
    exact Rust.sized_data _ _ h

theorem sized_flatTree (K : V → Text) (named : Bool) (at' : Attrs) (m : Meta) (fs : List Field) (vs : List V)
    (h : ∀ v ∈ vs, Rust.sized v) : Rust.sized (flatTree K named at' m fs vs) := by
  have hr : ∀ v ∈ (rows fs vs).flatMap contents, Rust.sized v := by
    intro v hv
    obtain ⟨r, hr, hv⟩ := List.mem_flatMap.mp hv
    exact sized_contents r (h _ (List.of_mem_zip (List.mem_filter.mp hr).1).2) v hv
  have hrows : ∀ c fc, ∀ r ∈ structRows K c fc 0 false 0 (rows fs vs), Rust.sized r.2.2.2 := by
    intro c fc r hr'
    refine hr _ ?_
    rw [← structRows_values K c fc 0 false 0]
    exact List.mem_map_of_mem hr'
  have hlen : ∀ c fc k, (if (rows fs vs).any (·.1.flatten) then none else some (rows fs vs).length) = some k →
      k = (structRows K c fc 0 false 0 (rows fs vs)).length := by
    intro c fc k hk
    have h1 := congrArg List.length (structRows_values K c fc 0 false 0 (rows fs vs))
    rw [List.length_map] at h1
    rw [h1]
    split at hk
    · cases hk
    · rename_i hn
      cases hk
      have hn' : ∀ r ∈ rows fs vs, r.1.flatten = false := by
        intro r hr'
        simp only [List.any_eq_true, not_exists, not_and, Bool.not_eq_true] at hn
        exact hn r hr'
      generalize rows fs vs = R at hn'
      clear * - hn'
      induction R with
      | nil => rfl
      | cons r R ih =>
        rw [List.flatMap_cons, List.length_append, ← ih fun r hr => hn' r (.tail _ hr), contents, hn' r (.head _)]
        simp [Nat.add_comm]
  dsimp only [flatTree]
  cases labeled named at' (rows fs vs) <;> cases indexed at' (rows fs vs)
  · simp only [Rust.sized, Rust.sizedSeq_iff, List.length_map]
    refine ⟨hlen _ _, fun x hx => ?_⟩
    obtain ⟨r, h, rfl⟩ := List.mem_map.mp hx
    exact hrows _ _ r h
  · simp only [Rust.sized, Rust.sizedTup_iff, List.length_map]
    refine ⟨hlen _ _, fun x hx => ?_⟩
    obtain ⟨r, h, rfl⟩ := List.mem_map.mp hx
    exact hrows _ _ r h
  · simp only [Rust.sized, Rust.sizedRec_iff, List.length_map]
    refine ⟨hlen _ _, fun x hx => ?_⟩
    obtain ⟨r, h, rfl⟩ := List.mem_map.mp hx
    exact hrows _ _ r h
  · simp only [Rust.sized, Rust.sizedRT_iff]
    exact ⟨hlen _ _, fun x hx => hrows _ _ x hx⟩

theorem sized_ftree (K : V → Text) (x : FV) (hok : fok K x) : Rust.sized (ftree K x) := by
  induction x using FV.ind with | h x ih => ?_
  have all : ∀ xs : List FV, (∀ x ∈ xs, Rust.sized (ftree K x)) → ∀ v ∈ ftrees K xs, Rust.sized v := by
    intro xs h v hv
    rw [ftrees_eq] at hv
    obtain ⟨x, hx, rfl⟩ := List.mem_map.mp hv
    exact h x hx
  cases x with
  | plain v => exact Rust.sized_tree v hok
  | some v => exact ih v (.head _) hok
  | slice vs =>
    rw [fok, foks_iff] at hok
    simp only [ftree, Rust.sized, Rust.sizedSeq_iff]
    exact ⟨fun k hk => by cases hk; simp [ftrees_eq], all vs fun x h => ih x h (hok x h)⟩
  | struct named ident at' fs vs =>
    rw [fok, foks_iff] at hok
    exact sized_flatTree _ _ _ _ _ _ (all vs fun x h => ih x h (hok.2 x h))
  | enum d i vs =>
    rw [fok, foks_iff] at hok
    obtain ⟨⟨v, hv, _⟩, hok⟩ := hok
    have hvs := all vs fun x h => ih x h (hok x h)
    have key : ∀ j, Rust.sized (flatVariant K d v j (ftrees K vs)) := by
      intro j
      unfold flatVariant
      cases v.shape with
      | unit => trivial
      | newtype =>
        cases hts : ftrees K vs with
        | nil => trivial
        | cons y ys =>
          have := hvs y (by rw [hts]; exact .head _)
          cases d.dyn <;> exact this
      | named fs => exact sized_flatTree _ _ _ _ _ _ hvs
      | unnamed fs => exact sized_flatTree _ _ _ _ _ _ hvs
    simp only [ftree, hv]
    cases d.dyn <;> exact key _

end Sval.Derive
