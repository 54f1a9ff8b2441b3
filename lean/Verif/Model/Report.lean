import Verif.Model.File
import Verif.Model.Color
/-!
# Model of `crates/bevy_flair_css_parser/src/error.rs`: where an error is reported

Not modelled: the messages, and the drawing of the report (crate `ariadne`), which is taken not to fail on a range
inside the text.
-/
namespace Flair.Report
open Flair.File (Text byteLen slice)

/-- `SourceLocation` of `cssparser`: lines from 0, columns from 1, in UTF-16 code units. -/
structure Loc where
  line : Nat
  column : Nat
deriving DecidableEq

/-- `char::len_utf16` -/
def utf16Len (c : Char) : Nat := if c.toNat ≤ 0xFFFF then 1 else 2

/-- How the tokenizer of `cssparser` counts lines and columns over a text: `\n`, `\r`, `\r\n` and the form feed end a
line. -/
def advance : Text → Loc → Loc
  | [], l => l
  | '\r' :: '\n' :: cs, l => advance cs ⟨l.line + 1, 1⟩
  | c :: cs, l =>
    if c = '\n' ∨ c = '\r' ∨ c = '\x0c' then advance cs ⟨l.line + 1, 1⟩ else advance cs ⟨l.line, l.column + utf16Len c⟩

/-- `current_source_location` when the text before is `pre`. -/
def locationAt (pre : Text) : Loc := advance pre ⟨0, 1⟩

/-- The end of line of `str::lines` is `\n` or `\r\n`. -/
def stripCr : Text → Text
  | [] => []
  | ['\r'] => []
  | c :: cs => c :: stripCr cs

/-- `str::lines` (used at error.rs:100-105): the lines, each with the byte where it starts.  `off`: where the current line
starts, `acc`: what is read of it. -/
def linesFrom (off : Nat) (acc : Text) : Text → List (Nat × Text)
  | [] => if acc = [] then [] else [(off, acc)]
  | c :: cs =>
    if c = '\n' then (off, stripCr acc) :: linesFrom (off + byteLen acc + 1) [] cs else linesFrom off (acc ++ [c]) cs

@[inherit_doc linesFrom]
def lines (contents : Text) : List (Nat × Text) := linesFrom 0 [] contents

/-- The loop over the characters of the line (error.rs:109-117): the bytes up to the column; `none` is a panic
(`Invalid column provided`, or the subtraction overflows). -/
def columnOffset : Text → Nat → Option Nat
  | _, 0 => some 0
  | [], _ + 1 => none
  | c :: cs, n + 1 =>
    if utf16Len c ≤ n + 1 then (columnOffset cs (n + 1 - utf16Len c)).map (c.utf8Size + ·) else none

/-- `&line[a..b]`, as a range of the contents (`substr_range`, error.rs:39-51); `none` is the panic when an end is not at the
boundary of a character of the line. -/
def subRange (start : Nat) (line : Text) (a b : Nat) : Option (Nat × Nat) :=
  if a ≤ b ∧ (slice line a).isSome ∧ (slice line b).isSome then some (start + a, start + b) else none

/-- The last part of `into_range` (error.rs:109-130), on the line it has found. -/
def lineRange (start : Nat) (line : Text) (column len : Nat) : Option (Nat × Nat) :=
  (columnOffset line (column - 1)).bind fun off =>
    if byteLen line ≤ off then
      if line = [] then none else subRange start line (byteLen line - 1) (byteLen line)
    else subRange start line off (off + len)

/-- `CssErrorLocation` (error.rs:23-35).  `subStr` is a part of the contents (a pointer in the code), from its first byte. -/
inductive Place where
  | range (a b : Nat)
  | unlocated
  | subStr (a len : Nat)
  | source (l : Loc) (len : Nat)

/-- `CssErrorLocation::into_range` (error.rs:79-132); `none` is a panic. -/
def intoRange (contents : Text) : Place → Option (Nat × Nat)
  | .unlocated => none
  | .range a b => some (a, b)
  | .subStr a len => if a ≤ byteLen contents ∧ a + len ≤ byteLen contents then some (a, a + len) else none
  | .source l len => (lines contents)[l.line]?.bind fun x => lineRange x.1 x.2 l.column len

/-- `improve_location_with_sub_str` (error.rs:332-339). -/
def improve (a len : Nat) : Place → Place
  | .unlocated => .subStr a len
  | p => p

/-- An error of `cssparser` for a token that is not expected (error.rs:61-70, 139-141): the location where the search for
the token started (before the white space), and the length of the token when it is written out again. -/
def unexpectedToken (pre : Text) (written : Text) : Place := .source (locationAt pre) (byteLen written)

/-- An at-rule that is not known (parser.rs:298, 310, 560, imports_parser.rs:35; error.rs:72-77, 142): the
location behind its name, and the length of its name (taken to be written without escapes). -/
def unknownAtRule (before name : Text) : Place := .source (locationAt (before ++ '@' :: name)) (byteLen name)

/-- The other errors of `cssparser`, as at the end of the text (error.rs:54-59, 143). -/
def plainError (pre : Text) : Place := .source (locationAt pre) 0

/-- A value read while the variables are known: `as_dynamic_parse_var_tokens` (reflect.rs:52-80, shorthand.rs:144-181) and
`as_parse_var_tokens` (parser/animations.rs:540-559).  `none` is a panic; no location is added to the error. -/
def lateValue {V : Type} (contents : Text) : V ⊕ Place → Option (Option V)
  | .inl v => some (some v)
  | .inr e => (intoRange contents e).map fun _ => none

/-- The token is a color of `cssparser`, and `ParsedColor` makes an error of it (color.rs:47-52, 155-161). -/
def colorError : Flair.Shorthand.Tok → Bool
  | .ident s => s == "currentcolor"
  | .func name args =>
    match Flair.Shorthand.nested (Flair.Colors.functionP name) args with
    | .ok none => true
    | _ => false
  | _ => false

/-- `parse_color` (color.rs:186-196) on the token it reads.  `e`: the error of `cssparser` for a token that is not a color. -/
def colorResult (hash : Nat → Option String) (e : Place) (t : Flair.Shorthand.Tok) : Flair.Colors.Color ⊕ Place :=
  match Flair.Colors.colorTok hash t with
  | some k => .inl k
  | none => .inr (if colorError t then .unlocated else e)

/-- `ErrorReportGenerator::add_error` (error.rs:453-478), for each error: the ranges that are shown; `none` is a panic. -/
def addErrors (contents : Text) (es : List Place) : Option (List (Nat × Nat)) := es.mapM (intoRange contents)

end Flair.Report
