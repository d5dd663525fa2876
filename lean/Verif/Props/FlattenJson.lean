import Verif.Props.Derive
import Verif.Props.RustJson

set_option autoImplicit false

/-!
# Properties of flattened fields written as JSON: C69
-/

namespace Sval

open Rust
open Json (J Env Doc parse consO pairO)
open Derive (Field Attrs FV stream ftree ftrees fok structRows flatRows keyText)

/-- The members of an object. -/
def membersOf : Option J → Option (List (Text × J))
  | some (.obj kvs) => some kvs
  | _ => none

def appendO {α : Type} (x y : Option (List α)) : Option (List α) := x.bind fun x => y.map (x ++ ·)

/-- The members that fields should have: a flattened field has those of the object that its value is. -/
def flatMembers : List (Field × Option J) → Option (List (Text × J))
  | [] => some []
  | (f, j) :: r =>
    if f.flatten then appendO (membersOf j) (flatMembers r)
    else consO (pairO (some (Derive.name f).text) j) (flatMembers r)

/-- `stream_to_string`, for code that makes calls of its own. -/
def jsonOf (env : Env) (x : Derive.Streamer) : Option Text :=
  match x (Json.St Text) (Json.call Json.strWriter env) { out := [] } with
  | .done true s => some s.out
  | _ => none

/-- Keys that are the same text in JSON and as a label. -/
def labelKey : V → Bool
  | .null | .bool _ | .int _ _ | .text _ _ => true
  | .tagged m v => !Json.isSpecialTag m.tag && labelKey v
  | .hint _ v => labelKey v
  | _ => false

/-- Values that are objects in JSON, and have entries to flatten. -/
def spread : V → Bool
  | .record _ _ _ | .recordTuple _ _ _ => true
  | .map _ kvs => kvs.all fun e => labelKey e.1
  | .tagged m v => !Json.isSpecialTag m.tag && spread v
  | .hint _ v => spread v
  | _ => false

theorem kept_strs (fs : List Text) : Flatten.kept (fs.map .str) = fs.flatten := by
  induction fs with
  | nil => rfl
  | cons f fs ih =>
    have : Flatten.hasNum (fs.map .str) = false := by
      simp [Flatten.hasNum, Flatten.Ev.isNum]
    rw [List.map_cons, Flatten.kept, this, ih]
    rfl

theorem labelKey_text (env : Env) (ryu : UInt64 → Text) (k : V) (h : labelKey k = true) :
    Json.keyText env k = some (keyText ryu k) := by
  induction k using V.ind <;> try (cases h; done)
  case null => rfl
  case bool b => cases b <;> rfl
  case int t v => rfl
  case text n fs =>
    have := kept_strs (fs.map Frag.content)
    rw [List.map_map] at this
    simp only [Json.keyText, keyText, Flatten.pieces]
    rw [show (fun f : Frag Text => Flatten.Ev.str f.content) = Flatten.Ev.str ∘ Frag.content from rfl, this]
    rfl
  case tagged m v ih =>
    rw [labelKey, Bool.and_eq_true] at h
    have hs : Json.isSpecialTag m.tag = false := by simpa using h.1
    simp only [Json.keyText, hs, Bool.false_eq_true, if_false, ih h.2]
    rfl
  case hint n v ih => exact ih h

/-- The entries of a value have the members of its document. -/
theorem spread_entries (env : Env) (ryu : UInt64 → Text) (v : V) (h : spread v = true) :
    membersOf (Json.value env v) = allO ((Flatten.entries v).map fun e =>
      pairO (Json.labelText (Flatten.labelOf (keyText ryu) e ⟨0, none⟩)) (Json.value env e.val)) ∧
    (∀ e ∈ Flatten.entries v, e.key.isSome = true ∨ e.label.isSome = true) ∧
    (Json.safe v = true → ∀ e ∈ Flatten.entries v, Json.safe e.val = true) := by
  have hm : ∀ x : Option (List (Text × J)), membersOf (x.map .obj) = x := fun x => by cases x <;> rfl
  induction v using V.ind <;> try (cases h; done)
  case map n kvs _ =>
    rw [Json.value, hm, json_entries, Flatten.entries]
    rw [spread, List.all_eq_true] at h
    refine ⟨?_, ?_, fun hs => ?_⟩
    · rw [List.map_map]
      congr 1
      refine List.map_congr_left fun x hx => ?_
      rw [labelKey_text env ryu x.1 (h x hx)]
      rfl
    · intro e he; obtain ⟨x, hx, rfl⟩ := List.mem_map.mp he; exact .inl rfl
    · rw [Json.safe, safeEntries_iff] at hs
      intro e he; obtain ⟨x, hx, rfl⟩ := List.mem_map.mp he
      exact (hs x hx).1.2
  case record m n fs _ =>
    rw [Json.value, hm, json_fields, Flatten.entries]
    refine ⟨?_, ?_, fun hs => ?_⟩
    · rw [List.map_map]; rfl
    · intro e he; obtain ⟨x, hx, rfl⟩ := List.mem_map.mp he; exact .inr rfl
    · rw [Json.safe, safeFields_iff] at hs
      intro e he; obtain ⟨x, hx, rfl⟩ := List.mem_map.mp he
      exact hs x hx
  case recordTuple m n fs _ =>
    rw [Json.value, hm, json_fieldsRT, Flatten.entries]
    refine ⟨?_, ?_, fun hs => ?_⟩
    · rw [List.map_map]; rfl
    · intro e he; obtain ⟨x, hx, rfl⟩ := List.mem_map.mp he; exact .inr rfl
    · rw [Json.safe, safeRT_iff] at hs
      intro e he; obtain ⟨x, hx, rfl⟩ := List.mem_map.mp he
      exact hs x hx
  case tagged m v ih =>
    rw [spread, Bool.and_eq_true] at h
    have hs : Json.isSpecialTag m.tag = false := by simpa using h.1
    simp only [Json.value, Json.safe, hs, Bool.false_eq_true, if_false, Flatten.entries]
    exact ih h.2
  case hint n v ih => exact ih h

theorem allO_append {α : Type} (xs ys : List (Option α)) : allO (xs ++ ys) = appendO (allO xs) (allO ys) := by
  induction xs with
  | nil => simp [allO, appendO]
  | cons x xs ih =>
    simp only [List.cons_append, allO, ih, appendO, consO]
    cases x <;> cases allO xs <;> cases allO ys <;> rfl

theorem structRows_json (env : Env) (ryu : UInt64 → Text) (c fc : Bool) (i : Int) (g : Bool) (n : Int) (rs : List (Field × V))
    (hf : ∀ r ∈ rs, r.1.flatten = true → spread r.2 = true)
    (hp : ∀ r ∈ rs, plainTag r.1.dataTag = true ∧ Json.labelText (Derive.name r.1) = some (Derive.name r.1).text) :
    allO ((structRows (keyText ryu) c fc i g n rs).map fun r => pairO (Json.labelText r.2.1) (Json.value env r.2.2.2)) =
      flatMembers (rs.map fun r => (r.1, Json.value env r.2)) ∧
    ((∀ r ∈ rs, Json.safe r.2 = true) → ∀ r ∈ structRows (keyText ryu) c fc i g n rs, Json.safe r.2.2.2 = true) := by
  induction rs generalizing i g n with
  | nil => exact ⟨rfl, fun _ r hr => by cases hr⟩
  | cons r rs ih =>
    obtain ⟨f, v⟩ := r
    have ih := fun i g n => ih i g n (fun r h => hf r (.tail _ h)) (fun r h => hp r (.tail _ h))
    rw [List.map_cons, flatMembers, structRows]
    cases hfl : f.flatten with
    | true =>
      simp only [if_true, List.map_append, allO_append]
      obtain ⟨h1, h2, h3⟩ := spread_entries env ryu v (hf (f, v) (.head _) hfl)
      refine ⟨?_, fun hs r hr => ?_⟩
      · rw [(ih _ _ _).1, h1, flatRows, List.map_map]
        congr 2
        have hc := C28_count n v
        conv => rhs; rw [← hc]
        rw [List.map_map]
        refine List.map_congr_left fun x hx => ?_
        have := h2 x.1 (Flatten.number_mem hx)
        simp only [Function.comp]
        congr 2
        unfold Flatten.labelOf
        rcases this with h | h
        · obtain ⟨k, hk⟩ := Option.isSome_iff_exists.mp h; rw [hk]
        · obtain ⟨l, hk⟩ := Option.isSome_iff_exists.mp h; rw [hk]; cases x.1.key <;> rfl
      · rcases List.mem_append.mp hr with h | h
        · rw [flatRows] at h
          obtain ⟨x, hx, rfl⟩ := List.mem_map.mp h
          exact h3 (hs (f, v) (.head _)) _ (Flatten.number_mem hx)
        · exact (ih _ _ _).2 (fun r h => hs r (.tail _ h)) r h
    | false =>
      obtain ⟨hp1, hp2⟩ := hp (f, v) (.head _)
      simp only [Bool.false_eq_true, if_false, List.map_cons, allO, (ih _ _ _).1, hp2, value_data env f v hp1]
      refine ⟨trivial, fun hs r hr => ?_⟩
      rcases List.mem_cons.mp hr with rfl | h
      · show Json.safe (Derive.data f v) = true
        rw [safe_data f v hp1]; exact hs (f, v) (.head _)
      · exact (ih _ _ _).2 (fun r h => hs r (.tail _ h)) r h

/-! ## C69 -/

theorem jsonOf_value (env : Env) (x : Derive.Streamer) (v : V) (hx : ∀ {σ : Type} (S : Token → σ → Res Unit σ) (s : σ),
    x σ S s = drive S (valueOf v) s) : jsonOf env x = Json.toString env (valueOf v) := by
  rw [jsonOf, hx, valueOf, drive_ofToks, Json.toString_eq]
  cases run (Json.call Json.strWriter env) (toks v) { out := [] } <;> rfl

/-- C69, as far as it holds, for any struct with fields that have names, also if there are flattened fields in its fields:
it is one object, in which a flattened field has the members its value has by itself. Missing: flattened enums, for
which it is false, `C69_fails_enum` (see `C69_enum_partial`), flattened values without labels (`C69_numbered_partial`), and those C40 and C68 leave out. -/
theorem C69_partial (env : Env) (ryu : UInt64 → Text) (named : Bool) (name : Text) (at' : Attrs) (fs : List Field) (xs : List FV)
    (kvs : List (Text × J)) (hx : fok (keyText ryu) (.struct named name at' fs xs)) (hp : fs.all plainField = true)
    (hl : Derive.labeled named at' (Derive.rows fs xs) = true)
    (hf : ∀ r ∈ Derive.rows fs (ftrees (keyText ryu) xs), Json.safe r.2 = true ∧ (r.1.flatten = true → spread r.2 = true))
    (hj : flatMembers (Derive.rows fs ((ftrees (keyText ryu) xs).map (Json.value env))) = some kvs) :
    ∃ t, jsonOf env (stream true ryu (.struct named name at' fs xs)) = some t ∧ parse t = some (.obj kvs) ∧
      ∀ j, Doc j t → j = .obj kvs := by
  rw [jsonOf_value env _ _ fun S s => (C40_exact ryu _ hx S s).1]
  have hl' : Derive.labeled named at' (Derive.rows fs (ftrees (keyText ryu) xs)) = true := by
    rw [← hl]
    have : ftrees (keyText ryu) xs = xs.map (ftree (keyText ryu)) := by
      clear hx hl hf hj
      induction xs with
      | nil => rfl
      | cons x xs ih => rw [ftrees, ih]; rfl
    rw [this, rows_map]
    exact labeled_map (fun r => (r.1, ftree (keyText ryu) r.2)) (fun _ => rfl) _ _ _
  rw [rows_map] at hj
  have key := fun c fc => structRows_json env ryu c fc 0 false 0 (Derive.rows fs (ftrees (keyText ryu) xs))
    (fun r h => (hf r h).2) (rows_plain hp _)
  refine C20_round_trip_partial env _ (.obj kvs) ?_ ?_
  · simp only [ftree, Derive.flatTree, hl']
    cases Derive.indexed at' (Derive.rows fs (ftrees (keyText ryu) xs))
    · simp only [Json.value, json_fields, List.map_map, Function.comp_def, (key _ _).1, hj]
      rfl
    · simp only [Json.value, json_fieldsRT, (key _ _).1, hj]
      rfl
  · simp only [ftree, Derive.flatTree, hl']
    cases Derive.indexed at' (Derive.rows fs (ftrees (keyText ryu) xs))
    · simp only [Json.safe, safeFields_iff]
      intro x hx
      obtain ⟨r, hr, rfl⟩ := List.mem_map.mp hx
      exact (key _ _).2 (fun r h => (hf r h).1) r hr
    · simp only [Json.safe, safeRT_iff]
      exact (key _ _).2 (fun r h => (hf r h).1)

/-- Keys that are the same text in JSON and as a label. -/
def labelKeyR : RV → Bool
  | .null | .bool _ | .int _ _ | .char _ | .str _ | .display _ => true
  | .some v | .boxed v => labelKeyR v
  | _ => false

/-- Structs whose fields have names, and maps. -/
def spreadR : RV → Bool
  | .struct named _ at' fs vs => Derive.labeled named at' (Derive.rows fs vs)
  | .map ks _ => ks.all labelKeyR
  | .some v | .boxed v | .newtype _ _ _ v => spreadR v
  | _ => false

theorem labelKey_tree (k : RV) (h : labelKeyR k = true) : labelKey (tree k) = true := by
  induction k using RV.ind with | h k ih => ?_
  cases k <;> try (cases h; done)
  case some v => exact ih v (.head _) h
  case boxed v => exact ih v (.head _) h
  all_goals rfl

theorem spread_tree (x : RV) (hc : tidy x = true) (h : spreadR x = true) : spread (tree x) = true := by
  induction x using RV.ind with | h x ih => ?_
  cases x <;> try cases h
  case some v => exact ih v (.head _) hc h
  case boxed v => exact ih v (.head _) hc h
  case newtype name at' transparent v =>
    rw [tidy, Bool.and_eq_true] at hc
    have := ih v (.head _) hc.2 h
    cases transparent
    · simp [tree, spread, plainTag_special _ hc.1, this]
    · exact this
  case map ks vs =>
    rw [spreadR, List.all_eq_true] at h
    rw [tree, spread, List.all_eq_true]
    intro e he
    have := (List.of_mem_zip he).1
    rw [trees_eq] at this
    obtain ⟨k, hk, e1⟩ := List.mem_map.mp this
    rw [← e1]
    exact labelKey_tree k (h k hk)
  case struct named name at' fs vs =>
    rw [spreadR] at h
    have : Derive.labeled named at' (Derive.rows fs (trees vs)) = true := by
      rw [← h, trees_eq, rows_map]
      exact labeled_map (fun r => (r.1, tree r.2)) (fun _ => rfl) _ _ _
    simp only [tree, Derive.structTree, this]
    cases Derive.indexed at' (Derive.rows fs (trees vs)) <;> rfl

/-- C69 for fields without flattened fields in them, in terms of their documents. -/
theorem C69_struct_partial (env : Env) (ryu : UInt64 → Text) (named : Bool) (name : Text) (at' : Attrs) (fs : List Field) (xs : List RV)
    (kvs : List (Text × J)) (hx : fok (keyText ryu) (.struct named name at' fs (xs.map .plain))) (hp : fs.all plainField = true)
    (hl : Derive.labeled named at' (Derive.rows fs xs) = true) (hc : ∀ x ∈ xs, clear x = true)
    (hf : ∀ r ∈ Derive.rows fs xs, r.1.flatten = true → spreadR r.2 = true)
    (hj : flatMembers (Derive.rows fs (docs env xs)) = some kvs) :
    ∃ t, jsonOf env (stream true ryu (.struct named name at' fs (xs.map .plain))) = some t ∧ parse t = some (.obj kvs) ∧
      ∀ j, Doc j t → j = .obj kvs := by
  have ht : ftrees (keyText ryu) (xs.map .plain) = xs.map tree := by
    clear hx hl hf hj hc
    induction xs with
    | nil => rfl
    | cons x xs ih => rw [List.map_cons, ftrees, ih]; rfl
  have hok : ∀ x ∈ xs, ok x := by
    have h : Derive.foks (keyText ryu) (xs.map .plain) := hx.2
    clear hx hl hf hj hc ht
    induction xs with
    | nil => intro x hx; cases hx
    | cons y ys ih =>
      intro x hx
      rcases List.mem_cons.mp hx with rfl | hx
      · exact h.1
      · exact ih h.2 x hx
  refine C69_partial env ryu named name at' fs (xs.map .plain) kvs hx hp ?_ ?_ ?_
  · rw [← hl, rows_map]
    exact labeled_map (fun r => (r.1, FV.plain r.2)) (fun _ => rfl) _ _ _
  · rw [ht, rows_map]
    intro r hr
    obtain ⟨r, hr', rfl⟩ := List.mem_map.mp hr
    have hm := (List.of_mem_zip (List.mem_filter.mp hr').1).2
    exact ⟨(doc_tree env r.2 (hok _ hm) (hc _ hm)).2, fun h => spread_tree _ ((clear_iff _).1 (hc _ hm)).1 (hf r hr' h)⟩
  · rw [ht, List.map_map, ← hj, docs_eq]
    congr 2
    exact List.map_congr_left fun x h => (doc_tree env x (hok x h) (hc x h)).1

/-- `{ a: u8, #[sval(flatten)] b: B, #[sval(skip)] s: (), #[sval(flatten)] m: HashMap<&str, u8>, c: u8 }` -/
def flatFields : List Field := [{ ident := some (t! "a") }, { ident := some (t! "b"), flatten := true }, { ident := some (t! "s"), skip := true },
  { ident := some (t! "m"), flatten := true }, { ident := some (t! "c") }]

def flatValues : List RV := [.int .u8 1, .struct true (t! "B") {} [{ ident := some (t! "x") }, { ident := some (t! "y") }] [.bool true, .unit],
  .unit, .map [.boxed (.str (t! "k\"")), .int .u8 2] [.int .u8 3, .boxed (.str (t! "v"))], .int .u8 4]

/-- The hypotheses of C69 hold. -/
example (env : Env) (ryu : UInt64 → Text) : fok (keyText ryu) (.struct true (t! "A") {} flatFields (flatValues.map .plain)) ∧
    flatFields.all plainField = true ∧ Derive.labeled true {} (Derive.rows flatFields flatValues) = true ∧
    (∀ x ∈ flatValues, clear x = true) ∧ (∀ r ∈ Derive.rows flatFields flatValues, r.1.flatten = true → spreadR r.2 = true) ∧
    flatMembers (Derive.rows flatFields (docs env flatValues)) =
      some [(t! "a", .num 1), (t! "x", .bool true), (t! "y", .null), (t! "k\"", .num 3), (t! "2", .str (t! "v")), (t! "c", .num 4)] := by
  refine ⟨⟨⟨rfl, rfl, ?_⟩, trivial, ⟨⟨rfl, by simp, rfl⟩, trivial, trivial, trivial⟩, trivial, ⟨rfl, ⟨trivial, trivial, trivial⟩, trivial, trivial, trivial⟩,
    trivial, trivial⟩, rfl, rfl, ?_, ?_, rfl⟩
  · have h : ∀ v e, Flatten.untaggedEnum v = true → ∀ n, Flatten.isIsize n → Flatten.entries v = e → Flatten.inRange n n e →
        (∀ x ∈ e, Token.mapKeyEnd ∉ toks x.val) → Derive.flattens n v := by
      intro v e h1 n h2 h3 h4 h5
      exact ⟨h1, h2, h3 ▸ h4, h3 ▸ h5⟩
    refine ⟨h _ [⟨none, none, some (identLabel (t! "x")), some (offset 0), .bool true⟩,
        ⟨none, none, some (identLabel (t! "y")), some (offset 1), .tag Serde.unitMeta⟩] rfl 1 (by decide) rfl
        (by decide) (by simp [toks]), ?_⟩
    exact ⟨h _ [⟨none, some (.text (some 2) [.borrowed (t! "k\"")]), none, none, .int .u8 3⟩,
        ⟨none, some (.int .u8 2), none, none, .text (some 1) [.borrowed (t! "v")]⟩] rfl 3 (by decide) rfl
        (by decide) (by simp [toks, textFragTok]), trivial⟩
  · intro x hx
    simp only [flatValues, List.mem_cons, List.not_mem_nil, or_false] at hx
    rcases hx with rfl | rfl | rfl | rfl | rfl <;> rfl
  · intro r hr
    have hr : r ∈ [(({ ident := some (t! "a") } : Field), RV.int .u8 1), ({ ident := some (t! "b"), flatten := true }, flatValues[1]),
      ({ ident := some (t! "m"), flatten := true }, flatValues[3]), ({ ident := some (t! "c") }, .int .u8 4)] := hr
    simp only [List.mem_cons, List.not_mem_nil, or_false] at hr
    rcases hr with rfl | rfl | rfl | rfl
    · exact nofun
    · exact fun _ => rfl
    · exact fun _ => rfl
    · exact nofun

/-- `enum E { V { x: u8 } }` -/
def flatEnum : Derive.EnumDef := { ident := t! "E", variants := [{ ident := t! "V", shape := .named [{ ident := some (t! "x") }] }] }

/-- C69 is false for enums: a flattened enum loses its variant. -/
theorem C69_fails_enum : doc anyEnv (.enum flatEnum 0 [.int .u8 1]) = some (.obj [(t! "V", .obj [(t! "x", .num 1)])]) ∧
    flatMembers [({ ident := some (t! "e"), flatten := true }, doc anyEnv (.enum flatEnum 0 [.int .u8 1]))] =
      some [(t! "V", .obj [(t! "x", .num 1)])] ∧
    jsonOf anyEnv (stream true (fun _ => []) (.struct true (t! "A") {} [{ ident := some (t! "e"), flatten := true }]
      [.plain (.enum flatEnum 0 [.int .u8 1])])) = some (t! "{\"x\":1}") := by
  refine ⟨rfl, rfl, by decide +kernel⟩

end Sval
