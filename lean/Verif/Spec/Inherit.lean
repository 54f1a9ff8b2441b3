import Verif.Spec.Values
import Verif.Model.Tree
/-!
# Specification of inheritance, top down over the hierarchy

`decl e` is the map of declared values of element `e` (`none`: no style sheet ever applied to it, all its
properties are unset and compute to nothing).
-/
namespace Flair.Spec
open Flair.Values Flair.Tree
variable {E P V : Type}

/-- The CSS computed value of property `p` at element `e`. -/
inductive Inherited (unsetAs : P → PropertyValue V) (init : P → V) (f : Forest E)
    (decl : E → Option (P → PropertyValue V)) (p : P) : E → ComputedValue V → Prop
  | unstyled (e) : decl e = none → Inherited unsetAs init f decl p e none
  | root (e m c) : f.parent e = none → decl e = some m → Computes (unsetAs p) (init p) none (m p) c →
      Inherited unsetAs init f decl p e c
  | child (e q m cq c) : f.parent e = some q → decl e = some m → Inherited unsetAs init f decl p q cq →
      Computes (unsetAs p) (init p) (some cq) (m p) c → Inherited unsetAs init f decl p e c

/-- `e` hangs below (or is) one of the `roots`. -/
def Under (f : Forest E) (roots : List E) (e : E) : Prop := ∃ r ∈ roots, r = e ∨ f.Anc r e

end Flair.Spec
