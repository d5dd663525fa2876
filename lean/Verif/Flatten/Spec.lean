import Verif.Flatten.Model

set_option autoImplicit false

/-!
# What flattening should do

Nothing here mentions the flattener: only values, their calls, and the numbering of entries.
-/

namespace Sval.Flatten

/-! ## The text of a key -/

/-- One piece of a key: a number, or some text. -/
inductive Ev where
  | num (t : Text)
  | str (t : Text)
deriving DecidableEq, Repr

def Ev.text : Ev → Text
  | num t => t
  | str t => t

/-- The pieces of a bare tag: its label, its index, or `null`. -/
def tagPieces (m : Meta) : List Ev :=
  match m.label, m.index with
  | some l, _ => [.str l.text]
  | none, some i =>
    -- an `Index` can only be made from integers in this range
    if -2 ^ 63 ≤ i.val ∧ i.val ≤ 2 ^ 64 - 1 then [.num (intDec i.val)] else [.str (intDec i.val)]
  | none, none => [.str (t! "null")]

mutual
/-- The pieces of a key, in order. Labels of records count, tags and sizes do not. -/
def pieces (ryu : UInt64 → Text) : V → List Ev
  | .null => [.str (t! "null")]
  | .bool b => [.str (if b then t! "true" else t! "false")]
  | .int _ v => [.num (intDec v)]
  | .f32 b => [.num (ryu (widen b))]
  | .f64 b => [.num (ryu b)]
  | .text _ fs => fs.map fun f => .str f.content
  | .binary _ fs => (fragsBytes fs).map fun b => .num (intDec b.toNat)
  | .seq _ xs => piecesSeq ryu xs
  | .map _ kvs => piecesMap ryu kvs
  | .tag m => tagPieces m
  | .tagged _ v => pieces ryu v
  | .enum _ v => pieces ryu v
  | .record _ _ fs => piecesRec ryu fs
  | .tuple _ _ fs => piecesTup ryu fs
  | .recordTuple _ _ fs => piecesRT ryu fs
  | .hint _ v => pieces ryu v
def piecesSeq (ryu : UInt64 → Text) : List V → List Ev
  | [] => []
  | x :: xs => pieces ryu x ++ piecesSeq ryu xs
def piecesMap (ryu : UInt64 → Text) : List (V × V) → List Ev
  | [] => []
  | (k, v) :: r => pieces ryu k ++ (pieces ryu v ++ piecesMap ryu r)
def piecesRec (ryu : UInt64 → Text) : List (Option Tag × Label × V) → List Ev
  | [] => []
  | (_, l, v) :: r => .str l.text :: (pieces ryu v ++ piecesRec ryu r)
def piecesTup (ryu : UInt64 → Text) : List (Option Tag × Index × V) → List Ev
  | [] => []
  | (_, _, v) :: r => pieces ryu v ++ piecesTup ryu r
def piecesRT (ryu : UInt64 → Text) : List (Option Tag × Label × Index × V) → List Ev
  | [] => []
  | (_, l, _, v) :: r => .str l.text :: (pieces ryu v ++ piecesRT ryu r)
end

/-- The text of some pieces. -/
def joined (es : List Ev) : Text := (es.map Ev.text).flatten

def Ev.isNum : Ev → Bool
  | num _ => true
  | str _ => false

/-- Is there a number among the pieces? -/
def hasNum (es : List Ev) : Bool := es.any Ev.isNum

/-- What is left of the pieces if every number forgets what came before it, and text following a number
forgets the number. -/
def kept : List Ev → Text
  | [] => []
  | .num t :: r => if r = [] then t else kept r
  | .str t :: r => if hasNum r then kept r else t ++ kept r

/-! ## Entries -/

/-- One entry a value has to contribute: how it is identified in the value, and its own value. -/
structure Entry where
  tag : Option Tag := none
  key : Option V := none
  label : Option Label := none
  index : Option Index := none
  val : V

mutual
/-- The entries of a value. Tagged values and enums are unwrapped; a tagged value in an enum is itself
the entry. -/
def entries : V → List Entry
  | .seq _ xs => xs.map fun x => { val := x }
  | .map _ kvs => kvs.map fun x => { key := some x.1, val := x.2 }
  | .record _ _ fs => fs.map fun f => { tag := f.1, label := some f.2.1, val := f.2.2 }
  | .tuple _ _ fs => fs.map fun f => { tag := f.1, index := some f.2.1, val := f.2.2 }
  | .recordTuple _ _ fs =>
    fs.map fun f => { tag := f.1, label := some f.2.1, index := some f.2.2.1, val := f.2.2.2 }
  | .tagged _ v => entries v
  | .enum _ v => variantEntries v
  | .hint _ v => entries v
  | _ => []
/-- The entries of the value in an enum. -/
def variantEntries : V → List Entry
  | .seq _ xs => xs.map fun x => { val := x }
  | .map _ kvs => kvs.map fun x => { key := some x.1, val := x.2 }
  | .record _ _ fs => fs.map fun f => { tag := f.1, label := some f.2.1, val := f.2.2 }
  | .tuple _ _ fs => fs.map fun f => { tag := f.1, index := some f.2.1, val := f.2.2 }
  | .recordTuple _ _ fs =>
    fs.map fun f => { tag := f.1, label := some f.2.1, index := some f.2.2.1, val := f.2.2.2 }
  | .tagged m v => [{ label := m.label, index := m.index, val := v }]
  | .enum _ v => variantEntries v
  | .hint _ v => variantEntries v
  | _ => []
end

/-- Is there an enum once tags are unwrapped? -/
def rootEnum : V → Bool
  | .enum _ _ => true
  | .tagged _ v => rootEnum v
  | .hint _ v => rootEnum v
  | _ => false

/-- No enum is itself tagged. -/
def untaggedEnum : V → Bool
  | .tagged _ v => !rootEnum v
  | .hint _ v => untaggedEnum v
  | _ => true

/-- The tag around an enum, the innermost if there are several. -/
def enumTag : V → Option Meta
  | .tagged m v =>
    match enumTag v with
    | some m' => some m'
    | none => if rootEnum v then some m else none
  | .hint _ v => enumTag v
  | _ => none

/-- The tags around an enum at the root, the innermost first. -/
def enumTags : V → List Meta
  | .tagged m v => if rootEnum v then enumTags v ++ [m] else []
  | .hint _ v => enumTags v
  | _ => []

/-! ## Numbering -/

/-- Is an integer an `isize`? -/
abbrev isIsize (i : Int) : Prop := -2 ^ 63 ≤ i ∧ i ≤ 2 ^ 63 - 1

/-- The `isize` with the same lowest 64 bits. -/
def wrap (i : Int) : Int := (i + 2 ^ 63) % 2 ^ 64 - 2 ^ 63

/-- The index an entry gets, from the offset `k` flattening started at and the next free one, `c`. -/
def place (k c : Int) (e : Entry) : Index :=
  match e.index with
  | none => ⟨c, some tags.VALUE_OFFSET⟩
  | some i => if i.tag = some tags.VALUE_OFFSET ∧ isIsize i.val then ⟨wrap (i.val + k), some tags.VALUE_OFFSET⟩ else i

/-- The offset before the next free one. -/
def last (c : Int) (i : Index) : Int := if isIsize i.val then i.val else c

/-- The next free offset. -/
def after (c : Int) (i : Index) : Int := wrap (last c i + 1)

/-- The entries with the indexes they get, and the final offset. -/
def number (k : Int) : Int → List Entry → List (Entry × Index) × Int
  | c, [] => ([], c)
  | c, e :: r => ((e, place k c e) :: (number k (after c (place k c e)) r).1, (number k (after c (place k c e)) r).2)

/-- No offset leaves the range of `isize`. -/
def inRange (k : Int) : Int → List Entry → Prop
  | _, [] => True
  | c, e :: r =>
    (∀ i, e.index = some i → i.tag = some tags.VALUE_OFFSET → isIsize i.val → isIsize (i.val + k)) ∧
      isIsize (last c (place k c e) + 1) ∧ inRange k (after c (place k c e)) r

instance decInRange (k : Int) : ∀ (c : Int) (es : List Entry), Decidable (inRange k c es)
  | _, [] => .isTrue trivial
  | c, e :: r =>
    have := decInRange k (after c (place k c e)) r
    have : Decidable (∀ i, e.index = some i → i.tag = some tags.VALUE_OFFSET → isIsize i.val → isIsize (i.val + k)) :=
      match e.index with
      | none => .isTrue (by simp)
      | some i => decidable_of_iff (i.tag = some tags.VALUE_OFFSET → isIsize i.val → isIsize (i.val + k)) (by simp)
    inferInstanceAs (Decidable (_ ∧ _ ∧ _))

/-! ## The calls of entries -/

/-- The label of an entry: its own, the text `K` makes of its key, or its index in decimal. -/
def labelOf (K : V → Text) (e : Entry) (i : Index) : Label :=
  match e.key, e.label with
  | some k, _ => Label.newComputed (K k)
  | none, some l => l
  | none, none => Label.newComputed (intDec i.val)

/-- The entries as the fields of a record. -/
def asRecord (K : V → Text) (es : List (Entry × Index)) : List (Option Tag × Label × V) :=
  es.map fun x => (x.1.tag, labelOf K x.1 x.2, x.1.val)
/-- The entries as the fields of a tuple. -/
def asTuple (es : List (Entry × Index)) : List (Option Tag × Index × V) :=
  es.map fun x => (x.1.tag, x.2, x.1.val)
/-- The entries as the elements of a sequence. -/
def asSeq (es : List (Entry × Index)) : List V := es.map fun x => x.1.val
/-- The entries as the fields of a record tuple. -/
def asRecordTuple (K : V → Text) (es : List (Entry × Index)) : List (Option Tag × Label × Index × V) :=
  es.map fun x => (x.1.tag, labelOf K x.1 x.2, x.2, x.1.val)
/-- A label as a text value. -/
def labelV (l : Label) : V :=
  .text (some (utf8Len l.text)) [if l.backing = .static then .borrowed l.text else .computed l.text]
/-- The entries as the entries of a map. -/
def asMap (es : List (Entry × Index)) : List (V × V) :=
  es.map fun x => ((match x.1.key with | some k => k | none => labelV (labelOf (fun _ => []) x.1 x.2)), x.1.val)

/-- The calls between the begin and end of a container that has these entries. -/
def entryToks (kind : Kind) (K : V → Text) (es : List (Entry × Index)) : List Token :=
  match kind with
  | .record => toksRec (asRecord K es)
  | .tuple => toksTup (asTuple es)
  | .seq => toksSeq (asSeq es)
  | .recordTuple => toksRT (asRecordTuple K es)
  | .map => toksMap (asMap es)

/-! ## Without an allocator -/

/-- What one call leaves of a key: a number, text that can be borrowed, or text that would have to be copied. -/
inductive Scrap where
  | num
  | lent (t : Text)
  | made
deriving DecidableEq, Repr

/-- A label: static text can be borrowed, other text cannot. -/
def labelScrap (l : Label) : Scrap := if l.backing = .static then .lent l.text else .made

/-- What a call in a key leaves. -/
def scraps : Token → List Scrap
  | .null => [.lent (t! "null")]
  | .bool b => [.lent (if b then t! "true" else t! "false")]
  | .int _ _ | .f32 _ | .f64 _ => [.num]
  | .textFragment s => [.lent s]
  | .textFragmentComputed _ => [.made]
  | .binaryFragment s | .binaryFragmentComputed s => s.map fun _ => .num
  | .tag m =>
    match m.label, m.index with
    | some l, _ => [labelScrap l]
    | none, some i => if -2 ^ 63 ≤ i.val ∧ i.val ≤ 2 ^ 64 - 1 then [.num] else [.made]
    | none, none => [.lent (t! "null")]
  | .recordValueBegin _ l | .recordTupleValueBegin _ l _ => [labelScrap l]
  | _ => []

/-- Can the scraps be kept without copying any text? Nothing that is not empty may have text after it, except
numbers, which start afresh; and no text may have to be copied. -/
def borrowable : Text → List Scrap → Bool
  | _, [] => true
  | _, .num :: r => borrowable [] r
  | c, .lent t :: r => c.isEmpty && borrowable t r
  | _, .made :: _ => false

/-- Can an entry be identified in a container of the given kind without an allocator? -/
def affordable (kind : Kind) (e : Entry) : Bool :=
  match e.key, e.label, e.index with
  | some k, _, _ =>
    match kind with
    | .record | .recordTuple => borrowable [] ((toks k).flatMap scraps)
    | _ => true
  -- an `Index` can only be made from integers in this range
  | none, none, some i => decide (-2 ^ 63 ≤ i.val ∧ i.val ≤ 2 ^ 64 - 1)
  | _, _, _ => true

end Sval.Flatten
