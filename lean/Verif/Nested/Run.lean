import Verif.Nested.Spec
import Verif.Buffer.Lemmas

set_option autoImplicit false

namespace Sval.Nested

section
variable {σ : Type} (C : Cb → σ → Res Unit σ)

@[simp] theorem runCb_nil (s : σ) : runCb C [] s = .ok s := rfl
@[simp] theorem runCb_cons (c : Cb) (X : List Cb) (s : σ) : runCb C (c :: X) s = (C c s).bind (runCb C X) := rfl

theorem runCb_append (X Y : List Cb) (s : σ) : runCb C (X ++ Y) s = (runCb C X s).bind (runCb C Y) := by
  induction X generalizing s with
  | nil => rfl
  | cons c X ih =>
    simp only [List.cons_append, runCb_cons]
    cases C c s <;> simp [Res.bind, ih]

/-- What is left to do after code that used `?`. -/
def Outcome.andThen {τ : Type} (o : Outcome τ) (f : τ → Outcome τ) : Outcome τ :=
  match o with
  | .done true s => f s
  | r => r

theorem exec_cons_tok (t : Token) (q : List Item) (c : Bool) (st : St σ) :
    exec C (prog (.tok t :: q)) c st =
      Outcome.andThen (call C (if c then computedTok t else t) st).outcome (exec C (prog q) c) := by
  simp only [prog, Item.prog, exec]
  cases call C (if c then computedTok t else t) st <;> simp [Res.outcome, Outcome.andThen]

theorem exec_cons_val (v q : List Item) (c : Bool) (st : St σ) :
    exec C (prog (.val v :: q)) c st =
      Outcome.andThen (if c then exec C (prog v) true st else delegate C (prog v) false (exec C (prog v) false) st)
        (exec C (prog q) c) := by
  simp only [prog, Item.prog, exec]
  generalize (if c then exec C (prog v) true st else delegate C (prog v) false (exec C (prog v) false) st) = r
  cases r with
  | done ok s => cases ok <;> simp [Outcome.andThen, exec]
  | panicked => rfl

theorem exec_cons_comp (v q : List Item) (c : Bool) (st : St σ) :
    exec C (prog (.comp v :: q)) c st =
      Outcome.andThen (delegate C (prog v) true (exec C (prog v) true) st) (exec C (prog q) c) := by
  simp only [prog, Item.prog, exec]
  generalize delegate C (prog v) true (exec C (prog v) true) st = r
  cases r with
  | done ok s => cases ok <;> simp [Outcome.andThen, exec]
  | panicked => rfl

theorem Outcome.andThen_assoc {τ : Type} (o : Outcome τ) (f g : τ → Outcome τ) :
    Outcome.andThen (Outcome.andThen o f) g = Outcome.andThen o fun s => Outcome.andThen (f s) g := by
  cases o with
  | done ok s => cases ok <;> rfl
  | panicked => rfl

theorem Outcome.andThen_done {τ : Type} (o : Outcome τ) : Outcome.andThen o (Outcome.done true) = o := by
  cases o with
  | done ok s => cases ok <;> rfl
  | panicked => rfl

theorem exec_append (p q : List Item) (c : Bool) (st : St σ) :
    exec C (prog (p ++ q)) c st = Outcome.andThen (exec C (prog p) c st) (exec C (prog q) c) := by
  induction p generalizing st with
  | nil => rfl
  | cons i p ih =>
    cases i with
    | tok t => rw [List.cons_append, exec_cons_tok, exec_cons_tok, Outcome.andThen_assoc]; congr 1; funext s; exact ih s
    | val v => rw [List.cons_append, exec_cons_val, exec_cons_val, Outcome.andThen_assoc]; congr 1; funext s; exact ih s
    | comp v => rw [List.cons_append, exec_cons_comp, exec_cons_comp, Outcome.andThen_assoc]; congr 1; funext s; exact ih s

theorem exec_one (i : Item) (c : Bool) (st : St σ) : exec C (prog [i]) c st =
    match i with
    | .tok t => (call C (if c then computedTok t else t) st).outcome
    | .val v => if c then exec C (prog v) true st else delegate C (prog v) false (exec C (prog v) false) st
    | .comp v => delegate C (prog v) true (exec C (prog v) true) st := by
  have e : exec C (prog []) c = Outcome.done true := by funext s; rfl
  cases i with
  | tok t => rw [exec_cons_tok, e, Outcome.andThen_done]
  | val v => rw [exec_cons_val, e, Outcome.andThen_done]
  | comp v => rw [exec_cons_comp, e, Outcome.andThen_done]
end

/-! ## On `Computed` -/

mutual
/-- What reaches a `FlatStream` through a `Computed`. -/
def Item.computed : Item → List Item
  | .tok t => [.tok (computedTok t)]
  | .val q => Nested.computed q
  | .comp q => [.comp q]
def computed : List Item → List Item
  | [] => []
  | i :: q => i.computed ++ computed q
end

theorem computed_append (p q : List Item) : computed (p ++ q) = computed p ++ computed q := by
  induction p with
  | nil => rfl
  | cons i p ih => simp [computed, ih]

mutual
def Item.size : Item → Nat
  | .tok _ => 1
  | .val q => 1 + Nested.size q
  | .comp q => 1 + Nested.size q
def size : List Item → Nat
  | [] => 0
  | i :: q => i.size + size q
end

theorem size_append (p q : List Item) : size (p ++ q) = size p + size q := by
  induction p with
  | nil => simp [size]
  | cons i p ih => simp [size, ih]; omega

mutual
theorem Item.size_computed : ∀ i : Item, Nested.size i.computed ≤ i.size
  | .tok _ => by simp [Item.computed, Item.size, Nested.size]
  | .val q => by simp only [Item.computed, Item.size]; have := Nested.size_computed q; omega
  | .comp q => by simp [Item.computed, Item.size, Nested.size]
theorem size_computed : ∀ q : List Item, size (computed q) ≤ size q
  | [] => by simp [computed]
  | i :: q => by
    simp only [computed, size, size_append]
    have := i.size_computed; have := size_computed q; omega
end

section
variable {σ : Type} (C : Cb → σ → Res Unit σ)

mutual
theorem exec_true_item (i : Item) (st : St σ) : exec C (prog [i]) true st = exec C (prog i.computed) false st := by
  match i with
  | .tok t => simp only [exec_one, Item.computed, if_true, Bool.false_eq_true, if_false]
  | .val q => rw [exec_one, Item.computed]; exact exec_true q st
  | .comp q => simp only [exec_one, Item.computed]
theorem exec_true (q : List Item) (st : St σ) : exec C (prog q) true st = exec C (prog (computed q)) false st := by
  match q with
  | [] => rfl
  | i :: q =>
    have h : exec C (prog ([i] ++ q)) true st = _ := exec_append C [i] q true st
    rw [List.singleton_append] at h
    rw [h, computed, exec_append, exec_true_item i st]
    congr 1; funext s; exact exec_true q s
end
end

theorem computed_flatMap {α : Type} (L : List α) (f : α → List Item) :
    computed (L.flatMap f) = L.flatMap fun x => computed (f x) := by
  induction L with
  | nil => rfl
  | cons x L ih => simp [List.flatMap_cons, computed_append, ih]

theorem computed_tok (t : Token) (q : List Item) (h : computedTok t = t) :
    computed (.tok t :: q) = .tok t :: computed q := by simp [computed, Item.computed, h]

/-- Relabel the first components. -/
theorem flatMap_map_eq {α β γ : Type} (L : List α) (f : α → β) (g : β → List γ) :
    (L.map f).flatMap g = L.flatMap fun x => g (f x) := by
  induction L with
  | nil => rfl
  | cons x L ih => simp [List.flatMap_cons, ih]

theorem Shows.computed {q : List Item} {v : V} (h : Shows q v) : Shows (computed q) v := by
  induction h with
  | null => exact .null
  | bool b => exact .bool b
  | int t v => exact .int t v
  | f32 b => exact .f32 b
  | f64 b => exact .f64 b
  | text n fs =>
    have e : Nested.computed (.tok (.textBegin n) :: (fs.map (Item.tok ∘ textFragTok) ++ [.tok .textEnd])) =
        .tok (.textBegin n) :: ((fs.map fun f => Frag.computed f.content).map (Item.tok ∘ textFragTok) ++ [.tok .textEnd]) := by
      rw [computed_tok _ _ rfl, computed_append]
      congr 2
      induction fs with
      | nil => rfl
      | cons f fs ih => cases f <;> simp [Nested.computed, Item.computed, textFragTok, computedTok, ih, Frag.content]
    rw [e]
    have e2 : ((fs.map fun f => Frag.computed f.content).map Frag.content) = fs.map Frag.content := by
      simp only [List.map_map]; rfl
    have := Shows.text n (fs.map fun f => Frag.computed f.content)
    rwa [e2] at this
  | binary n fs =>
    have e : Nested.computed (.tok (.binaryBegin n) :: (fs.map (Item.tok ∘ binFragTok) ++ [.tok .binaryEnd])) =
        .tok (.binaryBegin n) :: ((fs.map fun f => Frag.computed f.content).map (Item.tok ∘ binFragTok) ++ [.tok .binaryEnd]) := by
      rw [computed_tok _ _ rfl, computed_append]
      congr 2
      induction fs with
      | nil => rfl
      | cons f fs ih => cases f <;> simp [Nested.computed, Item.computed, binFragTok, computedTok, ih, Frag.content]
    rw [e]
    have e2 : ((fs.map fun f => Frag.computed f.content).map Frag.content) = fs.map Frag.content := by
      simp only [List.map_map]; rfl
    have := Shows.binary n (fs.map fun f => Frag.computed f.content)
    rwa [e2] at this
  | tag m => exact .tag m
  | seq n L h ih =>
    have := Shows.seq n (L.map fun x => (Nested.computed x.1, x.2)) (List.forall_mem_map.2 ih)
    simpa [Function.comp_def, flatMap_map_eq, Nested.computed, computed_append, computed_flatMap, Item.computed, computedTok] using this
  | bareSeq n L h ih =>
    have := Shows.bareSeq n (L.map fun x => (Nested.computed x.1, x.2)) (List.forall_mem_map.2 ih)
    simpa [Function.comp_def, flatMap_map_eq, Nested.computed, computed_append, computed_flatMap, Item.computed, computedTok] using this
  | map n L h1 h2 ih1 ih2 =>
    have := Shows.map n (L.map fun x => ((Nested.computed x.1.1, x.1.2), (Nested.computed x.2.1, x.2.2)))
      (List.forall_mem_map.2 ih1) (List.forall_mem_map.2 ih2)
    simpa [Function.comp_def, flatMap_map_eq, Nested.computed, computed_append, computed_flatMap, Item.computed, computedTok] using this
  | tuple m n L h ih =>
    have := Shows.tuple m n (L.map fun x => (x.1, x.2.1, Nested.computed x.2.2.1, x.2.2.2)) (List.forall_mem_map.2 ih)
    simpa [Function.comp_def, flatMap_map_eq, Nested.computed, computed_append, computed_flatMap, Item.computed, computedTok] using this
  | record m n L h ih =>
    have := Shows.record m n (L.map fun x => (x.1, x.2.1, Nested.computed x.2.2.1, x.2.2.2)) (List.forall_mem_map.2 ih)
    simpa [Function.comp_def, flatMap_map_eq, Nested.computed, computed_append, computed_flatMap, Item.computed, computedTok] using this
  | recordTuple m n L h ih =>
    have := Shows.recordTuple m n (L.map fun x => (x.1, x.2.1, x.2.2.1, Nested.computed x.2.2.2.1, x.2.2.2.2)) (List.forall_mem_map.2 ih)
    simpa [Function.comp_def, flatMap_map_eq, Nested.computed, computed_append, computed_flatMap, Item.computed, computedTok] using this
  | tagged m q v h ih =>
    simpa [Nested.computed, computed_append, Item.computed, computedTok] using Shows.tagged m _ v ih
  | enum m q v h ih =>
    simpa [Nested.computed, computed_append, Item.computed, computedTok] using Shows.enum m _ v ih
  | hint t q v h ih => simpa [Nested.computed, Item.computed, computedTok] using Shows.hint t _ v ih
  | val q v h ih => simpa [Nested.computed, Item.computed] using ih
  | comp q v h ih => exact .comp q v h

end Sval.Nested
