import Verif.Model.Tree
/-!
# Definitions seen through the hierarchy
-/
namespace Flair.Spec
open Flair.Tree
variable {E : Type}

/-- The definition of a variable an element sees, by recursion over the hierarchy: its own if there is
one, else the one its parent sees, else none. `defs e` is what `e` itself defines. -/
inductive NearestDef {V : Type} (f : Forest E) (defs : E → Option V) : E → Option V → Prop
  | own (e v) : defs e = some v → NearestDef f defs e (some v)
  | inherited (e p r) : defs e = none → f.parent e = some p → NearestDef f defs p r → NearestDef f defs e r
  | undefined (e) : defs e = none → f.parent e = none → NearestDef f defs e none

end Flair.Spec
