import Verif.Fmt.Token

set_option autoImplicit false

/-!
# Formatting to a `fmt::Formatter`, with its options

`ToFmt` and `stream_to_fmt` write to the `Formatter` they are given, through `impl TokenWrite for fmt::Formatter`:
`fmt/src/writer.rs:10-58`. Numbers go to their own `Display` with that formatter, so they see its options. Everything
else goes through `write_fmt` (`fmt/src/token_write.rs:19-22`), that starts again with the options of `{}`.

`Display` of integers and `Formatter::pad_integral` are in `core`. They are modelled after its source, to be able to
say what the options do. `Display` of floats is a parameter.
-/

namespace Sval.Fmt

/-- `fmt::Alignment` -/
inductive Align where
  | left
  | right
  | center
deriving DecidableEq

/-- The options of a `fmt::Formatter`. `{:?}` and its variants come down to the same: `Debug` for `ToFmt` is its
`Display`, `fmt/src/to_fmt.rs:37-41`. -/
structure Opts where
  fill : Char := ' '
  align : Option Align := none
  width : Nat := 0
  precision : Option Nat := none
  plus : Bool := false
  zero : Bool := false
  alternate : Bool := false

/-- How `Display` for floats writes them: the texts given to `write_str`, in order. -/
structure Floats where
  f32 : Opts → UInt32 → List Text
  f64 : Opts → UInt64 → List Text

/-- `Formatter::padding` of `core`: what it writes before, and what is left to be written after. -/
def padding (opts : Opts) (n : Nat) (default : Align) : List Text × List Text :=
  let before :=
    match opts.align.getD default with
    | .left => 0
    | .right => n
    | .center => n / 2
  (List.replicate before [opts.fill], List.replicate (n - before) [opts.fill])

/-- `write_prefix` of `Formatter::pad_integral`. -/
def writePrefix (sign : Option Char) (pre : Option Text) : List Text :=
  (match sign with | some c => [[c]] | none => []) ++ (match pre with | some t => [t] | none => [])

/-- `Formatter::pad_integral` of `core`: the texts given to `write_str` and `write_char`, in order. -/
def padIntegral (opts : Opts) (nonneg : Bool) (pre buf : Text) : List Text :=
  let width := buf.length
  let (sign, width) :=
    if nonneg = false then (some '-', width + 1)
    else if opts.plus then (some '+', width + 1)
    else (none, width)
  let (pre, width) := if opts.alternate then (some pre, width + pre.length) else (none, width)
  if width ≥ opts.width then writePrefix sign pre ++ [buf]
  else if opts.zero then
    let p := padding { opts with fill := '0', align := some .right } (opts.width - width) .right
    writePrefix sign pre ++ p.1 ++ [buf] ++ p.2
  else
    let p := padding opts (opts.width - width) .right
    p.1 ++ writePrefix sign pre ++ [buf] ++ p.2

/-- `Display` for integers in `core`. -/
def displayInt (opts : Opts) (v : Int) : List Text :=
  padIntegral opts (decide (0 ≤ v)) [] (natDec v.natAbs)

/-- Writing one text after the other, up to the first error. -/
def puts' {ω : Type} (str : Text → ω → Res Unit ω) : List Text → ω → Res Unit ω
  | [], o => .ok o
  | t :: r, o => (str t o).bind fun o => puts' str r o

/-- `impl TokenWrite for fmt::Formatter`: `fmt/src/writer.rs:10-58`. `str` is the writer below the formatter; a
`write_char` is taken to be the `write_str` of that character. -/
def formatter {ω : Type} (opts : Opts) (fl : Floats) (str : Text → ω → Res Unit ω) : Impl ω where
  str := str
  over
    | .int _ v => some (puts' str (displayInt opts v))
    | .f32 b => some (puts' str (fl.f32 opts b))
    | .f64 b => some (puts' str (fl.f64 opts b))
    | _ => none

/-- `stream_to_fmt`: `fmt/src/to_fmt.rs:33-35` -/
def toFmt {ω : Type} (opts : Opts) (fl : Floats) (str : Text → ω → Res Unit ω) (env : Env) (p : Prog) (o : ω) : Outcome ω :=
  toTokenWrite (byRef (formatter opts fl str) env) env p o

/-- `Display` and `Debug` for `ToFmt`, with any options: `fmt/src/to_fmt.rs:37-53`. `write!` starts again with the
options of `{}`. -/
def displayWith {ω : Type} (opts : Opts) (fl : Floats) (str : Text → ω → Res Unit ω) (env : Env) (p : Prog) (o : ω) :
    Outcome ω :=
  match toFmt opts fl str env p o with
  | .done true o => .done true o
  | .done false o =>
    match puts' str [t! "<", t! "an error occurred when formatting an argument", t! ">"] o with
    | .ok o => .done true o
    | .err _ o => .done false o
    | .panic => .panicked
  | .panicked => .panicked

/-- A writer that is a `String`. -/
def onto : Text → Text → Res Unit Text := fun t o => .ok (o ++ t)

/-- `format!` with some options. -/
def format (opts : Opts) (fl : Floats) (env : Env) (p : Prog) : Option Text :=
  match displayWith opts fl onto env p [] with
  | .done true o => some o
  | _ => none

end Sval.Fmt
