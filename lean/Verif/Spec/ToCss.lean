import Verif.Model.ToCss
import Verif.Tactics
/-!
# What writing a value as CSS should do
-/
namespace Flair.Spec
open Flair.ToCss Flair.Calc

/-- Two lengths of one unit that are at most half a tenth apart (`auto` only goes with `auto`) -/
def CloseVal : Val → Val → Prop
  | .auto, .auto => True
  | .len u p, .len v q => u = v ∧ |p - q| ≤ 1 / 20
  | _, _ => False

/-- A multiple of a tenth -/
def IsTenths (q : ℚ) : Prop := ∃ n : ℤ, q = n / 10

/-- The length is a multiple of a tenth of its unit -/
def ValInTenths : Val → Prop
  | .auto => True
  | .len _ q => IsTenths q

/-- A text is read by a parser as this value, and nothing is left over. -/
def ReadsAs {α : Type} (p : Shorthand.P α) (s : CssToken.Text) (a : α) : Prop := p (tokens s) = .ok (a, [])

/-- The text of several values is read as these values, one token each. -/
def ReadsAsAll {α : Type} (value : Shorthand.Tok → Option α) (s : CssToken.Text) (l : List α) : Prop :=
  (tokens s).map value = l.map some

end Flair.Spec
