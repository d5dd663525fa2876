import Verif.Flatten.Limits

set_option autoImplicit false

/-!
# Properties of `sval_flatten`: C28 to C31
-/

namespace Sval

open Flatten

/-- Flattening a value makes exactly the calls `X` to any stream until one fails, and then returns the offset `n`. -/
def FlattensTo (cfg : Flatten.Cfg) (v : V) (k : Int) (X : List Token) (n : Int) : Prop :=
  ∀ (σ : Type) (S : Token → σ → Res Unit σ) (s : σ),
    match run S X s with
    | .ok s' => flattenTo cfg S (valueOf v) k s = .done true (s', n)
    | .err _ s' => ∃ o, flattenTo cfg S (valueOf v) k s = .done false (s', o)
    | .panic => flattenTo cfg S (valueOf v) k s = .panicked

/-- The label kept for a map key: a number forgets the pieces of the key before it, and is forgotten by the
pieces after it. -/
def keyLabel (cfg : Flatten.Cfg) (k : V) : Text := kept (pieces cfg.ryu k)

/-- The calls of a value, with every end of a map key replaced by another begin. -/
def reopened (v : V) : List Token := (toks v).map fun t => if t = .mapKeyEnd then .mapKeyBegin else t

/-- The calls made for entries, the value of each being streamed by `body`. -/
def entryCalls (cfg : Flatten.Cfg) (body : V → List Token) (es : List (Entry × Index)) : List Token :=
  emit cfg.kind (keyLabel cfg) body es

theorem reopened_eq (v : V) : reopened v = broken v := by
  unfold reopened broken
  refine List.map_congr_left fun t _ => ?_
  cases t <;> simp [passed]

theorem flattensTo_of_does {cfg : Flatten.Cfg} {v : V} {k n : Int} {X Y : List Token} {c : Ctl}
    (h : Does cfg (toks v) { alloc := { initial := k, current := k } } Y c) (hn : c.alloc.current = n) (hx : X = Y) :
    FlattensTo cfg v k X n := by
  intro σ S s
  subst hx
  have := h σ S s
  simp only [flattenTo, valueOf, drive_ofToks, begin]
  cases hq : run (call cfg S) (toks v) ⟨{ alloc := { initial := k, current := k } }, s⟩ <;>
    cases hp : run S X s <;> rw [hq, hp] at this <;> simp only [Agrees] at this
  · subst this; simp [Res.outcome, hn]
  · subst this; simp [Res.outcome]
  · simp [Res.outcome]

/-- C29. What flattening does with any value that has no tagged enum at its root, if offsets fit or the build has no
overflow checks: each entry becomes one entry of the container, in order, numbered by `number`. But nested maps are broken: their keys
are never ended. -/
theorem C29_exact (cfg : Flatten.Cfg) (ha : cfg.alloc = true) (v : V) (k : Int) (hk : isIsize k)
    (hu : untaggedEnum v = true) (hr : cfg.checks = true → inRange k k (entries v)) :
    FlattensTo cfg v k (entryCalls cfg reopened (number k k (entries v)).1) (number k k (entries v)).2 := by
  obtain ⟨c, h1, _, _, h4⟩ := flattens_value (cfg := cfg) v { alloc := { initial := k, current := k } }
    ⟨rfl, rfl, rfl, rfl, hk⟩ (.inr hu) (fun _ _ => .inl ha) hr
  exact flattensTo_of_does h1 (by rw [h4]; rfl) (emit_congr _ _ _ _ _ fun x _ => reopened_eq _)

/-- C29. What flattening does with all other values, those that have a tagged enum at their root: what it does with other
values, and then the container gets an end of the tag although there was no begin, and then the flattener panics. This
is in builds with overflow checks; for others see `C29_tagged_wraps`. -/
theorem C29_tagged_exact (cfg : Flatten.Cfg) (ha : cfg.alloc = true) (hc : cfg.checks = true) (v : V) (k : Int) (hk : isIsize k) (m : Meta)
    (ht : enumTag v = some m) (hr : inRange k k (entries v)) {σ : Type} (S : Token → σ → Res Unit σ) (s : σ) :
    match run S (entryCalls cfg reopened (number k k (entries v)).1 ++ [.taggedEnd m]) s with
    | .err _ s' => ∃ o, flattenTo cfg S (valueOf v) k s = .done false (s', o)
    | _ => flattenTo cfg S (valueOf v) k s = .panicked := by
  have := breaks_value (cfg := cfg) v (fun _ _ => .inl ha) m ht { alloc := { initial := k, current := k } } ⟨rfl, rfl, rfl, rfl, hk⟩ rfl hc hr σ S s
  have hx : entryCalls cfg reopened (number k k (entries v)).1 =
      emit cfg.kind (keyText cfg.ryu) broken (number k k (entries v)).1 :=
    emit_congr _ _ _ _ _ fun x _ => reopened_eq _
  rw [hx]
  simp only [flattenTo, valueOf, drive_ofToks, begin]
  cases hq : run (call cfg S) (toks v) ⟨{ alloc := { initial := k, current := k } }, s⟩ <;>
    cases hp : run S (emit cfg.kind (keyText cfg.ryu) broken (number k k (entries v)).1 ++ [.taggedEnd m]) s <;>
    rw [hq, hp] at this <;> simp only [Agrees.Broken] at this
  · subst this
    simp [Res.outcome]
  · simp [Res.outcome]
  · simp [Res.outcome]

/-- C29. In builds without overflow checks, flattening a tagged enum does not panic: the container gets the entries and
then the ends of all the tags around the enum, which were not begun. -/
theorem C29_tagged_wraps (cfg : Flatten.Cfg) (ha : cfg.alloc = true) (hc : cfg.checks = false) (v : V) (k : Int) (hk : isIsize k)
    (ht : enumTags v ≠ []) :
    FlattensTo cfg v k
      (entryCalls cfg reopened (number k k (entries v)).1 ++ (enumTags v).map Token.taggedEnd) (number k k (entries v)).2 := by
  obtain ⟨c, h1, _, _, _, h4⟩ := wraps_value hc v (fun _ _ => .inl ha) { alloc := { initial := k, current := k } }
    ⟨rfl, rfl, rfl, rfl, hk⟩ rfl (rootEnum_of_tags ht)
  refine flattensTo_of_does h1 (by rw [h4]) ?_
  congr 1
  exact emit_congr _ _ _ _ _ fun x _ => reopened_eq _

/-- One of these is about any value. -/
theorem tagged_or_not (v : V) : untaggedEnum v = true ∨ ∃ m, enumTag v = some m := by
  cases h : enumTag v with
  | none => exact .inl (untagged_enumTag v h)
  | some m => exact .inr ⟨m, rfl⟩

/-- C29, as far as it holds. If no entry has a map with entries in its value, then the calls are those between the
begin and end of a container with these entries: each entry's begin and end carry the same label and index, and
the values are streamed unchanged.

Missing: nested maps, for which `C29_fails` shows it is false, and tagged enums, for which `C31_fails` does. -/
theorem C29_partial (cfg : Flatten.Cfg) (ha : cfg.alloc = true) (v : V) (k : Int) (hk : isIsize k)
    (hu : untaggedEnum v = true) (hr : cfg.checks = true → inRange k k (entries v)) (hm : ∀ e ∈ entries v, Token.mapKeyEnd ∉ toks e.val) :
    FlattensTo cfg v k (entryToks cfg.kind (keyLabel cfg) (number k k (entries v)).1) (number k k (entries v)).2 := by
  have := C29_exact cfg ha v k hk hu hr
  rw [entryCalls, emit_congr _ _ reopened toks _ ?_, emit_toks] at this
  · exact this
  · intro x hx
    have := hm _ (number_mem hx)
    unfold reopened
    conv => rhs; rw [← List.map_id (toks x.1.val)]
    refine List.map_congr_left fun t ht => ?_
    rw [if_neg]
    · rfl
    · rintro rfl; exact this ht

/-- A flattener into the named container, for examples. -/
def flat (kind : Flatten.Kind) : Flatten.Cfg := { kind, alloc := true, ryu := fun _ => t! "1.5" }

/-- A stream that keeps its calls. -/
def keepAll (t : Token) (s : List Token) : Res Unit (List Token) := .ok (s ++ [t])

theorem run_keepAll (ts s : List Token) : run keepAll ts s = .ok (s ++ ts) := by
  induction ts generalizing s with
  | nil => simp [run]
  | cons t ts ih => rw [run, keepAll, Res.bind_ok, ih]; simp

def aField : V := .record { tag := none, label := none, index := none } none
  [(none, Label.new (t! "a"), .seq none [.bool true]), (none, Label.new (t! "b"), .null)]

example : untaggedEnum aField = true ∧ inRange 5 5 (entries aField) ∧ ∀ e ∈ entries aField, Token.mapKeyEnd ∉ toks e.val := by
  refine ⟨rfl, by decide, ?_⟩
  simp [aField, entries, toks, toksSeq]

example : flattenTo (flat .tuple) keepAll (valueOf aField) 5 [] = .done true
    (toksTup [(none, ⟨5, some tags.VALUE_OFFSET⟩, .seq none [.bool true]), (none, ⟨6, some tags.VALUE_OFFSET⟩, .null)], 7) := by
  decide +kernel

/-- C29 is false for nested maps: the map `{k: 1}` as an element of a flattened sequence never ends its key. -/
theorem C29_fails : flattenTo (flat .seq) keepAll (valueOf (.seq none [.map none [(.bool true, .null)]])) 0 [] =
    .done true ([.seqValueBegin, .mapBegin none, .mapKeyBegin, .bool true, .mapKeyBegin, .mapValueBegin, .null,
      .mapValueEnd, .mapEnd, .seqValueEnd], 1) := by
  decide +kernel

/-- A tagged enum with an entry in it, and a stream that refuses the end of tags: it gets the entry, and then that end. -/
def taggedEnum : V := .tagged { label := some (Label.new (t! "O")) } (.hint tags.NUMBER (.tagged { label := some (Label.new (t! "I")) }
  (.enum {} (.tagged { label := some (Label.new (t! "B")) } (.bool true)))))

def noTagEnd (t : Token) (s : List Token) : Res Unit (List Token) :=
  match t with
  | .taggedEnd _ => .err () (s ++ [t])
  | _ => .ok (s ++ [t])

example : enumTag taggedEnum = some { label := some (Label.new (t! "I")) } ∧ inRange 0 0 (entries taggedEnum) := by
  decide +kernel
example : flattenTo (flat .record) noTagEnd (valueOf taggedEnum) 0 [] = .done false
    (toksRec [(none, Label.new (t! "B"), .bool true)] ++ [.taggedEnd { label := some (Label.new (t! "I")) }], 1) := by
  decide +kernel
example : flattenTo (flat .record) keepAll (valueOf taggedEnum) 0 [] = .panicked := by decide +kernel

/-! ## C28 -/

theorem number_length (k c : Int) (es : List Entry) : (number k c es).1.map Prod.fst = es := by
  induction es generalizing c with
  | nil => rfl
  | cons e es ih => rw [number_cons, List.map_cons, ih]

theorem number_dense (k : Int) (hk : 0 ≤ k) : ∀ (es : List Entry) (m : Nat), isIsize (k + m + es.length) →
    (∀ (j : Nat) (h : j < es.length), es[j].index = none ∨ es[j].index = some ⟨m + j, some tags.VALUE_OFFSET⟩) →
    inRange k (k + m) es ∧
      number k (k + m) es = (es.mapIdx fun j e => (e, ⟨k + m + j, some tags.VALUE_OFFSET⟩), k + m + es.length) := by
  intro es
  induction es with
  | nil => intro m _ _; simp [inRange, number]
  | cons e es ih =>
    intro m hr h
    have h0 := h 0 (by simp)
    simp only [List.getElem_cons_zero, Int.natCast_zero, Int.add_zero] at h0
    simp only [List.length_cons, Int.natCast_add, Int.cast_ofNat_Int] at hr
    have hp : place k (k + m) e = ⟨k + m, some tags.VALUE_OFFSET⟩ := by
      unfold place
      rcases h0 with h0 | h0 <;> rw [h0]
      simp only [true_and]
      rw [if_pos ⟨by omega, by omega⟩, Int.add_comm, wrap_eq ⟨by omega, by omega⟩]
    have hl : last (k + m) (place k (k + m) e) + 1 = k + (m + 1 : Nat) := by
      rw [hp]
      unfold last
      rw [if_pos (by simp only [isIsize]; omega)]
      simp only []
      omega
    have hq : after (k + m) (place k (k + m) e) = k + (m + 1 : Nat) := by
      unfold after
      rw [hl]
      exact wrap_eq (by simp only [isIsize]; omega)
    obtain ⟨h1, h2⟩ := ih (m + 1) (by simp only [isIsize]; omega) fun j hj => by
      have := h (j + 1) (by simpa using hj)
      simpa [Int.add_assoc, Int.add_comm 1] using this
    refine ⟨⟨?_, ?_, ?_⟩, ?_⟩
    · intro i hi _ hs
      rcases h0 with h0 | h0 <;> rw [h0] at hi
      · cases hi
      · cases hi; simp only [isIsize]; omega
    · rw [hl]; simp only [isIsize]; omega
    · rw [hq]; exact h1
    · rw [number_cons, hq, h2, hp]
      simp only [List.mapIdx_cons, List.length_cons]
      refine Prod.ext ?_ (by simp only []; omega)
      simp [Int.add_assoc, Int.add_comm 1]

/-- C28, as far as it holds. If each entry has no index of its own or just its offset in the value, then the entries
are numbered from the starting offset without gaps, and the next offset is returned: the value could be followed by
more fields. (For `flatten_to_seq` the indexes do not show.)

Missing: enums whose variant has a value and an offset other than 0, for which `C28_fails` shows it is false, and the
values for which C29 is. -/
theorem C28_dense_partial (cfg : Flatten.Cfg) (ha : cfg.alloc = true) (v : V) (k : Int) (hk : 0 ≤ k)
    (hu : untaggedEnum v = true) (hm : ∀ e ∈ entries v, Token.mapKeyEnd ∉ toks e.val)
    (hn : isIsize (k + (entries v).length))
    (hi : ∀ (j : Nat) (h : j < (entries v).length),
      (entries v)[j].index = none ∨ (entries v)[j].index = some ⟨j, some tags.VALUE_OFFSET⟩) :
    FlattensTo cfg v k
      (entryToks cfg.kind (keyLabel cfg) ((entries v).mapIdx fun j e => (e, ⟨k + j, some tags.VALUE_OFFSET⟩)))
      (k + (entries v).length) := by
  obtain ⟨h1, h2⟩ := number_dense k hk (entries v) 0 (by simpa using hn) (by simpa using hi)
  simp only [Int.natCast_zero, Int.add_zero] at h1 h2
  have := C29_partial cfg ha v k (by simp only [isIsize] at hn ⊢; omega) hu (fun _ => h1) hm
  rwa [h2] at this

/-- Whatever the indexes, there is one entry for each entry of the value. -/
theorem C28_count (k : Int) (v : V) : ((number k k (entries v)).1).map Prod.fst = entries v := number_length k k _

/-- A tuple with implicit indexes, after five other fields. -/
example : flattenTo (flat .recordTuple) keepAll (valueOf (.tuple {} none
      [(none, ⟨0, some tags.VALUE_OFFSET⟩, .null), (none, ⟨1, some tags.VALUE_OFFSET⟩, .bool true)])) 5 [] = .done true
    (toksRT [(none, Label.newComputed (t! "5"), ⟨5, some tags.VALUE_OFFSET⟩, .null),
      (none, Label.newComputed (t! "6"), ⟨6, some tags.VALUE_OFFSET⟩, .bool true)], 7) := by
  decide +kernel

/-- C28 is false for enums: the second variant `B(true)` is numbered 1 although it is the only entry, and the next
offset is 2. -/
theorem C28_fails : flattenTo (flat .tuple) keepAll (valueOf (.enum {} (.tagged
      { label := some (Label.new (t! "B")), index := some ⟨1, some tags.VALUE_OFFSET⟩ } (.bool true)))) 0 [] =
    .done true (toksTup [(none, ⟨1, some tags.VALUE_OFFSET⟩, .bool true)], 2) := by
  decide +kernel

/-! ## C30 -/

/-- A key that is text, or made of texts and other words, or is one number. -/
def simpleKey (ryu : UInt64 → Text) (k : V) : Prop := hasNum (pieces ryu k) = false ∨ ∃ t, pieces ryu k = [.num t]

theorem keyLabel_simple (cfg : Flatten.Cfg) (k : V) (h : simpleKey cfg.ryu k) : keyLabel cfg k = joined (pieces cfg.ryu k) := by
  rcases h with h | ⟨t, h⟩
  · exact kept_strs h
  · simp [keyLabel, h, kept, joined, Ev.text]

theorem number_none (k : Int) (hk : 0 ≤ k) (es : List Entry) (hn : isIsize (k + es.length)) (h : ∀ e ∈ es, e.index = none) :
    inRange k k es ∧ number k k es = (es.mapIdx fun j e => (e, ⟨k + j, some tags.VALUE_OFFSET⟩), k + es.length) := by
  have := number_dense k hk es 0 (by simpa using hn) fun j hj => .inl (h _ (List.getElem_mem hj))
  simpa using this

/-- C30. What labels map keys become in a record. -/
theorem C30_exact (cfg : Flatten.Cfg) (ha : cfg.alloc = true) (hc : cfg.kind = .record) (n : Option Nat) (kvs : List (V × V))
    (k : Int) (hk : 0 ≤ k) (hn : isIsize (k + kvs.length)) (hm : ∀ x ∈ kvs, Token.mapKeyEnd ∉ toks x.2) :
    FlattensTo cfg (.map n kvs) k
      (toksRec (kvs.map fun x => (none, Label.newComputed (kept (pieces cfg.ryu x.1)), x.2))) (k + kvs.length) := by
  have h := number_none k hk (entries (.map n kvs)) (by simpa [entries] using hn) (by
    intro e he
    simp only [entries, List.mem_map] at he
    obtain ⟨x, _, rfl⟩ := he
    rfl)
  have := C29_partial cfg ha (.map n kvs) k (by simp only [isIsize] at hn ⊢; omega) rfl (fun _ => h.1) (by
    intro e he
    simp only [entries, List.mem_map] at he
    obtain ⟨x, hx, rfl⟩ := he
    exact hm x hx)
  rw [h.2] at this
  have e1 : entryToks cfg.kind (keyLabel cfg)
      ((entries (.map n kvs)).mapIdx fun j e => (e, (⟨k + j, some tags.VALUE_OFFSET⟩ : Index))) =
      toksRec (kvs.map fun x => (none, Label.newComputed (kept (pieces cfg.ryu x.1)), x.2)) := by
    rw [hc]
    simp only [entryToks, asRecord, entries]
    congr 1
    refine List.ext_getElem (by simp) fun i h1 h2 => ?_
    simp [labelOf, keyLabel]
  simp only [e1] at this
  simpa [entries] using this

/-- C30, as far as it holds. In a record, the label of each entry of a map is the text of its key, if that is text,
made of texts, or is a single number.

Missing: keys made of several values with a number among them, for which `C30_fails` shows it is false. -/
theorem C30_labels_partial (cfg : Flatten.Cfg) (ha : cfg.alloc = true) (hc : cfg.kind = .record) (n : Option Nat)
    (kvs : List (V × V)) (k : Int) (hk : 0 ≤ k) (hn : isIsize (k + kvs.length))
    (hm : ∀ x ∈ kvs, Token.mapKeyEnd ∉ toks x.2) (hs : ∀ x ∈ kvs, simpleKey cfg.ryu x.1) :
    FlattensTo cfg (.map n kvs) k
      (toksRec (kvs.map fun x => (none, Label.newComputed (joined (pieces cfg.ryu x.1)), x.2))) (k + kvs.length) := by
  have := C30_exact cfg ha hc n kvs k hk hn hm
  rwa [List.map_congr_left fun x hx => by rw [← keyLabel_simple cfg x.1 (hs x hx), keyLabel]]

/-- The pieces of a text are its fragments: the label of a text key is the whole text. -/
theorem C30_text (ryu : UInt64 → Text) (n : Option Nat) (fs : List (Frag Text)) :
    simpleKey ryu (.text n fs) ∧ joined (pieces ryu (.text n fs)) = (fs.map Frag.content).flatten := by
  constructor
  · left
    simp [pieces, hasNum, Ev.isNum]
  · simp [pieces, joined, Function.comp_def, Ev.text]

example : flattenTo (flat .record) keepAll (valueOf (.map none
      [(.text none [.borrowed (t! "a"), .computed (t! "b")], .null), (.int .u8 3, .null),
        (.seq none [.bool true, .text none [.borrowed (t! "x")]], .null)])) 0 [] = .done true
    (toksRec [(none, Label.newComputed (t! "ab"), .null), (none, Label.newComputed (t! "3"), .null),
      (none, Label.newComputed (t! "truex"), .null)], 3) := by
  decide +kernel

/-- C30 is false for keys that have a number among several values: the key `["a", 1]` becomes the label `1`, and
the key `[1, "a"]` the label `a`. -/
theorem C30_fails : flattenTo (flat .record) keepAll (valueOf (.map none
      [(.seq none [.text none [.borrowed (t! "a")], .int .u8 1], .null),
        (.seq none [.int .u8 1, .text none [.borrowed (t! "a")]], .null)])) 0 [] = .done true
    (toksRec [(none, Label.newComputed (t! "1"), .null), (none, Label.newComputed (t! "a"), .null)], 2) := by
  decide +kernel

/-! ## C31 -/

/-- Values with nothing to flatten. An enum cannot be tagged: `C31_fails` -/
inductive Hollow : V → Prop where
  | null : Hollow .null
  | bool (b : Bool) : Hollow (.bool b)
  | int (t : IntTy) (v : Int) : Hollow (.int t v)
  | f32 (b : UInt32) : Hollow (.f32 b)
  | f64 (b : UInt64) : Hollow (.f64 b)
  | text (n : Option Nat) (fs : List (Frag Text)) : Hollow (.text n fs)
  | binary (n : Option Nat) (fs : List (Frag Bytes)) : Hollow (.binary n fs)
  | tag (m : Meta) : Hollow (.tag m)
  | seq (n : Option Nat) : Hollow (.seq n [])
  | map (n : Option Nat) : Hollow (.map n [])
  | record (m : Meta) (n : Option Nat) : Hollow (.record m n [])
  | tuple (m : Meta) (n : Option Nat) : Hollow (.tuple m n [])
  | recordTuple (m : Meta) (n : Option Nat) : Hollow (.recordTuple m n [])
  | hint (t : Tag) (v : V) : Hollow v → Hollow (.hint t v)
  | tagged (m : Meta) (v : V) : Hollow v → rootEnum v = false → Hollow (.tagged m v)
  | enum (m : Meta) (v : V) : Hollow v → variantEntries v = [] → Hollow (.enum m v)

theorem Hollow.entries {v : V} (h : Hollow v) : Flatten.entries v = [] ∧ untaggedEnum v = true := by
  induction h with
  | hint t v _ ih => exact ih
  | tagged m v _ hr ih => exact ⟨ih.1, by simp [untaggedEnum, hr]⟩
  | enum m v _ hv _ => exact ⟨hv, rfl⟩
  | _ => exact ⟨rfl, rfl⟩

/-- C31, as far as it holds: flattening a value with nothing to flatten calls nothing, whatever the stream, and
returns the offset it was given.

Missing: tagged enums, for which `C31_fails` shows it is false. -/
theorem C31_nothing_partial (cfg : Flatten.Cfg) (ha : cfg.alloc = true) (v : V) (h : Hollow v) (k : Int) (hk : isIsize k)
    {σ : Type} (S : Token → σ → Res Unit σ) (s : σ) : flattenTo cfg S (valueOf v) k s = .done true (s, k) := by
  have he := h.entries.1
  have := C29_exact cfg ha v k hk h.entries.2 (fun _ => by rw [he]; trivial) σ S s
  rw [he] at this
  exact this

example : Hollow (.hint tags.NUMBER (.tagged {} (.tagged {} (.seq none [])))) :=
  .hint _ _ (.tagged _ _ (.tagged _ _ (.seq _) rfl) rfl)

example : Hollow (.enum {} (.enum {} (.tag {}))) := .enum _ _ (.enum _ _ (.tag _) rfl) rfl

/-- C31. So of the values without entries, exactly those without a tagged enum are flattened without a trace. -/
theorem C31_exact (cfg : Flatten.Cfg) (ha : cfg.alloc = true) (v : V) (he : entries v = []) (k : Int) (hk : isIsize k) :
    (∀ (σ : Type) (S : Token → σ → Res Unit σ) (s : σ), flattenTo cfg S (valueOf v) k s = .done true (s, k)) ↔
      untaggedEnum v = true := by
  constructor
  · intro h
    rcases tagged_or_not v with hu | ⟨m, ht⟩
    · exact hu
    · cases hc : cfg.checks with
      | true =>
        have := C29_tagged_exact cfg ha hc v k hk m ht (by rw [he]; trivial) keepAll []
        rw [he] at this
        simp only [number, entryCalls, emit, List.flatMap_nil, List.nil_append] at this
        rw [h] at this
        cases this
      | false =>
        refine Classical.byContradiction fun hu => ?_
        have ht : enumTags v ≠ [] := fun hn => hu (enumTags_nil.mp hn)
        have := C29_tagged_wraps cfg ha hc v k hk ht _ keepAll []
        rw [he] at this
        simp only [number, entryCalls, emit, List.flatMap_nil, List.nil_append, h] at this
        obtain ⟨m, r, hm⟩ := List.exists_cons_of_ne_nil ht
        rw [hm, run_keepAll] at this
        cases this
  · intro hu σ S s
    have := C29_exact cfg ha v k hk hu (fun _ => by rw [he]; trivial) σ S s
    rw [he] at this
    exact this

/-- C31 is false for tagged enums: the end of the tag is taken for that of a variant, and the depth underflows. -/
theorem C31_fails : flattenTo (flat .record) keepAll (valueOf (.tagged {} (.enum {} .null))) 0 [] = .panicked := by
  decide +kernel

end Sval
