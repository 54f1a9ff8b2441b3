import Verif.Model.Media
/-!
# Specification of media conditions

`Holds p c`: the condition `c` holds for a window reporting `p`.  From the model only the types of
conditions and of what a window reports are used.
-/
namespace Flair.Spec
open Flair.Media

/-- `exact`, `max-` and `min-` (both inclusive). -/
def InBounds {α : Type} [LE α] : Range α → α → Prop
  | .exact a, v => v = a
  | .lessOrEqual a, v => v ≤ a
  | .greaterOrEqual a, v => a ≤ v

/-- The condition holds; never for a feature the window does not report.  The aspect ratio of a
window of height 0 is infinite (undefined when the width is 0 as well). -/
def Holds (p : Provider) : Selector → Prop
  | .colorScheme s => p.colorScheme = some s
  | .viewportWidth r => ∃ w, p.width = some w ∧ InBounds r w
  | .viewportHeight r => ∃ h, p.height = some h ∧ InBounds r h
  | .resolution r => ∃ x, p.resolution = some x ∧ InBounds r x
  | .aspectRatio r => ∃ w h, p.width = some w ∧ p.height = some h ∧
      ((h ≠ 0 ∧ InBounds r ((w : ℚ) / (h : ℚ))) ∨ (h = 0 ∧ w ≠ 0 ∧ ∃ a, r = .greaterOrEqual a))

end Flair.Spec
