import Verif.Fmt.Token
import Verif.Fmt.Spec

set_option autoImplicit false

/-!
# What a `TokenWrite` should be called with

The calls follow the structure of the value. Each method is told whether it is at the first element of its
container, and whether the container was empty.
-/

namespace Sval.Fmt

/-- A tag without a value: its label, or a unit. -/
def nameCall (m : Meta) : Call :=
  match m.label with
  | some l => .type l.text
  | none => .null

/-- A label, if there is one. -/
def labelCalls (f : Text → Call) (m : Meta) : List Call :=
  match m.label with
  | some l => [f l.text]
  | none => []

/-- The bytes of a binary. -/
def shapeBytes (first : Bool) : Bytes → List Call
  | [] => []
  | b :: r => .seqValueBegin first :: .int .u8 b.toNat :: shapeBytes false r

section
variable (again : Meta → V → List Call) (flag : Bool → V → Bool)

mutual
/-- The calls for a value. `num` says that a text is written as a number: it is inside `NUMBER`. `again` is what
follows the variant of an enum; it should be nothing. `flag` is what `write_map_value_begin` is told about the
entry with some key, given if it is the first; it should be just that. -/
def shape (num : Bool) : V → List Call
  | .null => [.null]
  | .bool b => [.bool b]
  | .int t v => [.int t v]
  | .f32 b => [.f32 b]
  | .f64 b => [.f64 b]
  | .text _ fs =>
    if num then fs.map fun f => .number f.content
    else .textQuote :: (fs.map fun f => .text f.content) ++ [.textQuote]
  | .binary _ fs => .seqBegin :: shapeBytes true (fragsBytes fs) ++ [.seqEnd (fragsBytes fs).isEmpty]
  | .seq _ xs => .seqBegin :: shapeSeq true xs ++ [.seqEnd xs.isEmpty]
  | .map _ kvs => .mapBegin :: shapeMap true kvs ++ [.mapEnd kvs.isEmpty]
  | .tag m => [nameCall m]
  | .tagged m v =>
    match m.label with
    | some l =>
      .tupleType l.text :: .tupleBegin :: shape (num || decide (m.tag = some tags.NUMBER)) v ++ [.tupleEnd false]
    | none => shape (num || decide (m.tag = some tags.NUMBER)) v
  | .enum m v => shape num v ++ again m v
  | .record m _ fs => labelCalls .recordType m ++ .recordBegin :: shapeRec true fs ++ [.recordEnd fs.isEmpty]
  | .tuple m _ fs => labelCalls .tupleType m ++ .tupleBegin :: shapeTup true fs ++ [.tupleEnd fs.isEmpty]
  | .recordTuple m _ fs => labelCalls .recordType m ++ .recordBegin :: shapeRT true fs ++ [.recordEnd fs.isEmpty]
  | .hint _ v => shape num v
def shapeSeq (first : Bool) : List V → List Call
  | [] => []
  | x :: xs => .seqValueBegin first :: shape false x ++ shapeSeq false xs
def shapeMap (first : Bool) : List (V × V) → List Call
  | [] => []
  | (k, v) :: r =>
    .mapKeyBegin first :: shape false k ++ .mapValueBegin (flag first k) :: shape false v ++ shapeMap false r
def shapeRec (first : Bool) : List (Option Tag × Label × V) → List Call
  | [] => []
  | (_, l, v) :: r => .recordValueBegin l.text first :: shape false v ++ shapeRec false r
def shapeTup (first : Bool) : List (Option Tag × Index × V) → List Call
  | [] => []
  | (_, _, v) :: r => .tupleValueBegin first :: shape false v ++ shapeTup false r
def shapeRT (first : Bool) : List (Option Tag × Label × Index × V) → List Call
  | [] => []
  | (_, l, _, v) :: r => .recordValueBegin l.text first :: shape false v ++ shapeRT false r
end
end

/-- The calls that should be made. -/
def due : V → List Call := shape (fun _ _ => []) (fun first _ => first) false

/-- The defect of enums: the tag again after a variant with nothing in it. -/
def twiceCalls : Meta → V → List Call := fun m v => if hollow true v then [nameCall m] else []

/-- The calls that are made. -/
def made : V → List Call := shape twiceCalls hollow false

/-- The key of an entry leaves `is_first` as it was. -/
def keyOk (first : Bool) (k : V) : Bool := hollow first k == first

mutual
/-- No map has a key that confuses the writer about which entry it is at: the first key of every map is a scalar
without a tag or an empty container, and no later key is an empty container. -/
def keysOk : V → Bool
  | .null | .bool _ | .int _ _ | .f32 _ | .f64 _ | .text _ _ | .binary _ _ | .tag _ => true
  | .seq _ xs => keysOkSeq xs
  | .map _ kvs => keysOkMap true kvs
  | .tagged _ v => keysOk v
  | .enum _ v => keysOk v
  | .record _ _ fs => keysOkRec fs
  | .tuple _ _ fs => keysOkTup fs
  | .recordTuple _ _ fs => keysOkRT fs
  | .hint _ v => keysOk v
def keysOkSeq : List V → Bool
  | [] => true
  | x :: xs => keysOk x && keysOkSeq xs
def keysOkMap (first : Bool) : List (V × V) → Bool
  | [] => true
  | (k, v) :: r => keyOk first k && (keysOk k && (keysOk v && keysOkMap false r))
def keysOkRec : List (Option Tag × Label × V) → Bool
  | [] => true
  | (_, _, v) :: r => keysOk v && keysOkRec r
def keysOkTup : List (Option Tag × Index × V) → Bool
  | [] => true
  | (_, _, v) :: r => keysOk v && keysOkTup r
def keysOkRT : List (Option Tag × Label × Index × V) → Bool
  | [] => true
  | (_, _, _, v) :: r => keysOk v && keysOkRT r
end

/-- What the provided body of a method writes. -/
def spelled (env : Env) : Call → Text
  | .token _ t | .number t | .atom t | .type t | .field t | .ident t | .punct t | .ws t | .tupleType t => t
  | .int _ v => intDec v
  | .f32 b => env.f32 b
  | .f64 b => env.f64 b
  | .null => t! "()"
  | .bool b => if b then t! "true" else t! "false"
  | .textQuote => t! "\""
  | .text t => escape env t
  | .mapBegin | .recordBegin => t! "{"
  | .mapKeyBegin first => if first then t! " " else t! ", "
  | .mapValueBegin _ => t! ": "
  | .mapEnd empty | .recordEnd empty => if empty then t! "}" else t! " }"
  | .recordType t => t ++ t! " "
  | .recordValueBegin field first => (if first then t! " " else t! ", ") ++ field ++ t! ": "
  | .seqBegin => t! "["
  | .seqValueBegin first | .tupleValueBegin first => if first then [] else t! ", "
  | .seqEnd _ => t! "]"
  | .tupleBegin => t! "("
  | .tupleEnd _ => t! ")"

/-- What a call comes down to for a writer that overrides none of the methods for containers or for numbers of a fixed type:
numbers, atoms, names, punctuation, whitespace and text. `named` says that the names of types and of fields are told
apart. -/
def leaves (named : Bool) (env : Env) : Call → List Call
  | .int _ v => [.number (intDec v)]
  | .f32 b => [.number (env.f32 b)]
  | .f64 b => [.number (env.f64 b)]
  | .null => [.atom (t! "()")]
  | .bool b => [.atom (if b then t! "true" else t! "false")]
  | .type t | .tupleType t => [if named then .type t else .ident t]
  | .field t => [if named then .field t else .ident t]
  | .mapBegin | .recordBegin => [.punct (t! "{")]
  | .mapKeyBegin true => [.ws (t! " ")]
  | .mapKeyBegin false => [.punct (t! ","), .ws (t! " ")]
  | .mapValueBegin _ => [.punct (t! ":"), .ws (t! " ")]
  | .mapEnd true | .recordEnd true => [.punct (t! "}")]
  | .mapEnd false | .recordEnd false => [.ws (t! " "), .punct (t! "}")]
  | .recordType t => [if named then .type t else .ident t, .ws (t! " ")]
  | .recordValueBegin f true => [.ws (t! " "), if named then .field f else .ident f, .punct (t! ":"), .ws (t! " ")]
  | .recordValueBegin f false =>
    [.punct (t! ","), .ws (t! " "), if named then .field f else .ident f, .punct (t! ":"), .ws (t! " ")]
  | .seqBegin => [.punct (t! "[")]
  | .seqValueBegin true | .tupleValueBegin true => []
  | .seqValueBegin false | .tupleValueBegin false => [.punct (t! ","), .ws (t! " ")]
  | .seqEnd _ => [.punct (t! "]")]
  | .tupleBegin => [.punct (t! "(")]
  | .tupleEnd _ => [.punct (t! ")")]
  | c => [c]

/-- The methods `leaves` comes down to. -/
def Call.leaf (named : Bool) : Call → Bool
  | .token _ _ | .number _ | .atom _ | .ident _ | .punct _ | .ws _ | .textQuote | .text _ => true
  | .type _ | .field _ => named
  | _ => false

end Sval.Fmt
