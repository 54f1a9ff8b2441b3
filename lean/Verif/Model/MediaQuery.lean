import Verif.Model.Media
import Verif.Model.Longhand
/-!
# Model of `crates/bevy_flair_css_parser/src/parser/media_selectors.rs`

Tokens as in `Model/Shorthand` (identifiers and units lower-cased).  The colon is the token `delim ':'`: nothing reads a
delimiter `':'` otherwise.  A number has an `int_value` when it is an integer, cut to 32 bits (`1.0` is not told from `1`).
-/
namespace Flair.MediaQuery
open Flair.Calc Flair.Shorthand Flair.Longhand Flair.Media

variable {α β : Type}

/-- The quotient of two `f32`s (a divisor zero is a positive one). -/
inductive Bound where
  | fin (q : ℚ)
  | posInf
  | negInf
  | nan
deriving DecidableEq

/-- `MediaSelector` (media_selector.rs:57-68), with any quotient as an aspect ratio. -/
inductive Parsed where
  | colorScheme (s : Scheme)
  | viewportWidth (r : Range Nat)
  | viewportHeight (r : Range Nat)
  | aspectRatio (r : Range Bound)
  | resolution (r : Range ℚ)

/-- `int_value: Some(n)` with `n >= 0`, `as u32` -/
def wholeOf (q : ℚ) : Option Nat :=
  if q.den = 1 ∧ 0 ≤ q.num then some (min 2147483647 q.num).toNat else none

/-- `parse_size` (parser/media_selectors.rs:5-32), on the token it reads. -/
def wholeTok : Tok → Option Nat
  | .number q => wholeOf q
  | .dimension q u => if u = "px" then wholeOf q else none
  | _ => none

/-- `parse_resolution` (parser/media_selectors.rs:34-58), on the token it reads. -/
def resolutionTok : Tok → Option ℚ
  | .dimension q u => if u = "dppx" then some q else if u = "x" then some q else none
  | _ => none

/-- `number / divisor` (parser/media_selectors.rs:66) -/
def divide (n d : ℚ) : Bound :=
  if d ≠ 0 then .fin (n / d) else if n = 0 then .nan else if 0 < n then .posInf else .negInf

/-- `parse_ratio` (parser/media_selectors.rs:60-70). -/
def ratioP : P Bound := do
  let n ← tok1 numberTok
  let d ← tryP (do delimIs '/'; tok1 numberTok)
  pure (d.elim (.fin n) (divide n))

/-- `parse_color_scheme` (parser/media_selectors.rs:72-85), on the token it reads. -/
def schemeTok : Tok → Option Scheme
  | .ident s => if s = "light" then some .light else if s = "dark" then some .dark else none
  | _ => none

/-- The constructor chosen by `parse_selector_range` (parser/media_selectors.rs:88-102): the first three letters. -/
def rangeOf (name : String) (a : α) : Range α :=
  if name.toList.take 3 = ['m', 'i', 'n'] then .greaterOrEqual a
  else if name.toList.take 3 = ['m', 'a', 'x'] then .lessOrEqual a
  else .exact a

/-- `parse_selector_range` (parser/media_selectors.rs:88-102). -/
def rangeP (name : String) (p : P α) : P (Range α) := do
  let a ← p
  pure (rangeOf name a)

/-- The value after the colon (parser/media_selectors.rs:108-132), by the name of the feature. -/
def valueP (name : String) : P Parsed :=
  if name = "prefers-color-scheme" then do
    let s ← tok1 schemeTok
    pure (.colorScheme s)
  else if name = "width" ∨ name = "min-width" ∨ name = "max-width" then do
    let r ← rangeP name (tok1 wholeTok)
    pure (.viewportWidth r)
  else if name = "height" ∨ name = "min-height" ∨ name = "max-height" then do
    let r ← rangeP name (tok1 wholeTok)
    pure (.viewportHeight r)
  else if name = "aspect-ratio" ∨ name = "min-aspect-ratio" ∨ name = "max-aspect-ratio" then do
    let r ← rangeP name ratioP
    pure (.aspectRatio r)
  else if name = "resolution" ∨ name = "min-resolution" ∨ name = "max-resolution" then do
    let r ← rangeP name (tok1 resolutionTok)
    pure (.resolution r)
  else fail

/-- `expect_located_ident`, on the token it reads. -/
def nameTok : Tok → Option String
  | .ident s => some s
  | _ => none

/-- `parse_media_selector_atom` (parser/media_selectors.rs:105-134). -/
def atomP : P Parsed := do
  let name ← tok1 nameTok
  delimIs ':'
  valueP name

/-- `expect_parenthesis_block` and `parse_nested_block_with(parse_media_selector_atom)`
(parser/media_selectors.rs:138-139). -/
def blockP : P Parsed
  | .paren ts :: rest => (nested atomP ts).bind fun s => .ok (s, rest)
  | _ => .err

/-- What the loop of `parse_media_selectors` tries (parser/media_selectors.rs:143-148). -/
def andP : P Parsed := do
  identIs "and"
  blockP

/-- `parse_media_selectors` (parser/media_selectors.rs:137-153); every round of the loop takes tokens. -/
def selectorsP : P (List Parsed) := do
  let s ← blockP
  let ss ← loop andP
  pure (s :: ss)

/-- The prelude of `@media`: all of it has to be used (`parse_until_before` of `cssparser`). -/
def preludeP (ts : List Tok) : Res (List Parsed) := entirely selectorsP ts

end Flair.MediaQuery
