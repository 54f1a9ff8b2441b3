import Verif.Model.CssToken
import Verif.Model.Vars
import Verif.Tactics
/-!
# What the text of a variable value should be
-/
namespace Flair.Spec
open Flair.CssToken Flair.Vars
variable {Num : Type}

/-- The CSS token a variable token stands for -/
def asCss : VarToken Num → CTok Num
  | .ident t => .ident t
  | .hash t => .hash t
  | .string t => .string t
  | .delim c => if c = ':' then .colon else if c = ';' then .semicolon else if c = ',' then .comma else .delim c
  | .number x => .number x
  | .percentage x => .percentage x
  | .dimension x u => .dimension x u
  | .function t => .function t
  | .endFunction => .closeParen

/-- A token after its percentage, if it is one, went through "times hundred, print, read, divide by hundred", which in `f32`
may be one rounding away from where it started -/
def rereadPct (N : NumText Num) : CTok Num → CTok Num
  | .percentage x => .percentage (N.readPct (N.showPct x))
  | t => t

/-- A plain numeral: an optional minus, digits, and possibly a point with more digits -/
def Numeral (t : Text) : Prop :=
  ∃ sgn int frac : Text, (sgn = [] ∨ sgn = ['-']) ∧ int ≠ [] ∧ (∀ c ∈ int, isDigit c = true) ∧
    (frac = [] ∨ ∃ ds : Text, ds ≠ [] ∧ (∀ c ∈ ds, isDigit c = true) ∧ frac = '.' :: ds) ∧ t = sgn ++ int ++ frac

/-- Numbers are printed as plain numerals (Rust prints `f32` without exponent) that read back as the same number. -/
structure PrintsExactly (N : NumText Num) : Prop where
  numeral : ∀ x, Numeral (N.show x)
  numeralPct : ∀ x, Numeral (N.showPct x)
  exact : ∀ x, N.read (N.show x) = x

/-- The unit begins like the exponent of a number: `e`, perhaps a sign, a digit. -/
def ExponentLike (u : Text) : Prop :=
  ∃ c d : Char, ∃ s r : Text, (c = 'e' ∨ c = 'E') ∧ (s = [] ∨ s = ['+'] ∨ s = ['-']) ∧ isDigit d = true ∧
    u = c :: s ++ d :: r

/-- What the text of tokens cannot carry: a string with a double quote in it, and a unit that begins like an exponent -/
def Carried : VarToken Num → Prop
  | .string t => '"' ∉ t
  | .dimension _ u => ¬ExponentLike u
  | _ => True

/-- How tokens and references are written: `var(--x)` for the reference to `x`, every other token as itself -/
inductive Written : VarTokens Text (VarToken Num) → List (CTok Num) → Prop
  | nil : Written [] []
  | var {f x vts l} : f.map lower = ['v', 'a', 'r'] → x ≠ [] → Written vts l →
      Written (.var x :: vts) (.function f :: .ident ('-' :: '-' :: x) :: .closeParen :: l)
  | token {v vts l} : Written vts l → Written (.token v :: vts) (asCss v :: l)

end Flair.Spec
