import Verif.Model.CssToken
import Verif.Model.Shorthand
import Verif.Model.Selector
import Verif.Model.F32
/-!
# Values written as CSS

`bevy_flair_style/src/to_css.rs` and the other implementations of `ToCss` (those of variable tokens are in
`Verif.Model.CssToken`).  Simplified: `f32` is `Flair.F32`, so a negative number that rounds to zero is printed as `0` where the
code prints `-0` (which reads as the same number); finite results are not rounded to 24 bits.
-/
namespace Flair.ToCss
open Flair.CssToken Flair.Calc

/-- `f32::round_ties_even` -/
def roundEven (x : ℚ) : ℤ :=
  if x - ⌊x⌋ < 1 / 2 then ⌊x⌋ else if 1 / 2 < x - ⌊x⌋ then ⌊x⌋ + 1 else if ⌊x⌋ % 2 = 0 then ⌊x⌋ else ⌊x⌋ + 1

/-- `round_float` (to_css.rs:32-34) -/
def roundFloat : F32 → F32
  | .num q => .num (roundEven (q * 10) / 10)
  | x => x

/-- A decimal digit -/
def digit (n : Nat) : Char := Char.ofNat (48 + n)

/-- Decimal notation of a natural number -/
def decimal (n : Nat) : Text := if n < 10 then [digit n] else decimal (n / 10) ++ [digit (n % 10)]
termination_by n
decreasing_by omega

/-- Decimal notation of so many tenths -/
def tenths (n : ℤ) : Text :=
  (if n < 0 then ['-'] else []) ++ decimal (n.natAbs / 10) ++
    if n.natAbs % 10 = 0 then [] else ['.', digit (n.natAbs % 10)]

/-- `Display` of `f32` (`core::fmt`), for the special values and for multiples of a tenth, which is all it is used for here -/
def display : F32 → Text
  | .num q => tenths (q * 10).num
  | .pinf => ['i', 'n', 'f']
  | .ninf => ['-', 'i', 'n', 'f']
  | .nan => ['N', 'a', 'N']

/-- `ToCss for f32` (to_css.rs:36-40) -/
def numberText (x : F32) : Text := display (roundFloat x)

/-- The units of `ToCss for Val` (to_css.rs:46-63) -/
def unitText : LUnit → Text
  | .px => ['p', 'x']
  | .percent => ['%']
  | .vw => ['v', 'w']
  | .vh => ['v', 'h']
  | .vmin => ['v', 'm', 'i', 'n']
  | .vmax => ['v', 'm', 'a', 'x']

/-- `ToCss for Val` (to_css.rs:46-63), for all but `Auto` -/
def lengthText (u : LUnit) (x : F32) : Text := display (roundFloat x) ++ unitText u

/-- `ToCss for Val` (to_css.rs:42-66) -/
def valText : Val → Text
  | .auto => ['a', 'u', 't', 'o']
  | .len u q => lengthText u (.num q)

/-- `ToCss for &[T]` (to_css.rs:20-30), on the texts of the members -/
def sliceText : List Text → Text
  | [] => []
  | [t] => t
  | t :: t' :: ts => t ++ ' ' :: sliceText (t' :: ts)

/-- `ToCss for NodePseudoStateSelector` (lib.rs:119-130) and `InternalPseudoStateSelector` (css_selector/mod.rs:78-89) -/
def stateText : Selector.StateSel → Text
  | .pressed => ":active".toList
  | .hovered => ":hover".toList
  | .focused => ":focus".toList
  | .focusedAndVisible => ":focus-visible".toList
  | .disabled => ":disabled".toList
  | .checked => ":checked".toList

/-- `ToCss for CssPseudoElement` (css_selector/mod.rs:168-175) -/
def elementText : Selector.PseudoElem → Text
  | .before => "::before".toList
  | .after => "::after".toList

/-! ## Reading it back -/

/-- The value of digits -/
def digitsValue (ds : Text) : ℚ := ds.foldl (fun n c => n * 10 + ((c.toNat - 48 : ℕ) : ℚ)) 0

/-- The factor an exponent stands for -/
def exponentValue : Text → ℚ
  | [] => 1
  | _ :: s => if (sign s).1 = ['-'] then (10 ^ (digitsValue (sign s).2).num.toNat)⁻¹ else 10 ^ (digitsValue (sign s).2).num.toNat

/-- The value of a number ("convert a string to a number", CSS Syntax Level 3, 4.3.13; `consume_numeric` of `cssparser`) -/
def readNumber (t : Text) : ℚ :=
  (if (sign t).1 = ['-'] then -1 else 1) *
    (digitsValue ((sign t).2.takeWhile isDigit) +
      digitsValue (fraction ((sign t).2.dropWhile isDigit)).1.tail /
        10 ^ (fraction ((sign t).2.dropWhile isDigit)).1.tail.length) *
    exponentValue (exponent (fraction ((sign t).2.dropWhile isDigit)).2).1

/-- Numbers in decimal notation -/
def decimals : NumText ℚ where
  read := readNumber
  readPct t := readNumber t / 100
  «show» q := display (.num q)
  showPct q := display (.num (q * 100))

/-- The tokens of the parsers of values (`Verif.Model.Shorthand`), which see percentages as `unit_value * 100` and units
without regard to case -/
def asTok : CTok ℚ → Shorthand.Tok
  | .ident t => .ident (String.ofList t)
  | .number q => .number q
  | .percentage q => .percentage (q * 100)
  | .dimension q u => .dimension q (String.ofList (u.map CssToken.lower))
  | .delim c => .delim c
  | .comma => .comma
  | .string t => .quoted (String.ofList t)
  | _ => .other 0

/-- The tokens of a text -/
def tokens (s : Text) : List Shorthand.Tok := (lex decimals s).map asTok

end Flair.ToCss
