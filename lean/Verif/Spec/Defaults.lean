import Verif.Model.Defaults
import Verif.Spec.Registry
/-!
# What the built-in plugins do, as a history of registrations
-/
namespace Flair.Spec
open Flair.Defaults Flair.Reflect Flair.Registry

/-- The built-in components are registered, and then the properties of the inherited ones are made to inherit (these
are their ids, see `C87_build`). -/
def builtinOps : List (RegOp Name String Unset) :=
  components.map (fun x => .component x.1 (canonical x)) ++
    [76, 78, 79, 80, 81, 82, 77].map fun i => .unset (.id i) .inherit

/-- The type of the value of a property of a built-in component is the one that was declared. -/
def DeclaredTypes (r : Reg Name String Unset) (typeOf : Nat → Nat) : Prop :=
  ∀ i t p l u, r.props[i]? = some (t, p) → (t, l) ∈ components → (p, u) ∈ l.properties → typeOf i = u

end Flair.Spec
