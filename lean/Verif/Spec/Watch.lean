import Verif.Model.Selector
/-!
# Selectors that look only where changes are noticed

A change of an element is noticed by its siblings, its descendants and its ancestors that looked at it, not by the
descendants of its siblings.  So siblings may be looked at from the element the selector is for and from its siblings, not
from its ancestors: `.a .b ~ .c:hover` but not `.a ~ .b .c`; and there is no `:has()`.
-/
namespace Flair.Spec
open Flair.Selector

mutual
/-- A simple selector; `side`: siblings may be looked at. -/
def WatchSimple (side : Bool) : Simple → Prop
  | .nth _ _ _ => side = true
  | .nthOfType _ _ _ => side = true
  | .nthOf _ _ _ sels => side = true ∧ WatchSels side sels
  | .not sels => WatchSels side sels
  | .is sels => WatchSels side sels
  | .where_ sels => WatchSels side sels
  | .has _ => False
  | _ => True
/-- A compound selector -/
def WatchCompound (side : Bool) : Compound → Prop
  | .nil => True
  | .cons s c => WatchSimple side s ∧ WatchCompound side c
/-- A selector -/
def WatchSel (side : Bool) : Sel → Prop
  | .subject c => WatchCompound side c
  | .link l k c => WatchCompound side c ∧
    match k with
    | .next => side = true ∧ WatchSel true l
    | .later => side = true ∧ WatchSel true l
    | _ => WatchSel false l
/-- A list of selectors -/
def WatchSels (side : Bool) : Sels → Prop
  | .nil => True
  | .cons s ss => WatchSel side s ∧ WatchSels side ss
end

end Flair.Spec
