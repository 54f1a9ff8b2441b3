import Verif.Model.Registry
/-!
# Histories of registrations
-/
namespace Flair.Spec
open Flair.Registry
variable {N T V C : Type} [DecidableEq N] [DecidableEq T] [DecidableEq C]

/-- What an application does with a property registry. -/
inductive RegOp (N T V : Type) where
  | component (t : T) (props : List N)
  | properties (props : List N)
  | unset (p : Ref N) (v : V)

/-- One operation; `none` is a panic. -/
def RegOp.run (dflt : V) (r : Reg N T V) : RegOp N T V → Option (Reg N T V)
  | .component t ns => r.register dflt t ns
  | .properties ns => (r.addProps dflt ns).map Prod.fst
  | .unset p v => r.setUnset p v

/-- The names an operation registers. -/
def RegOp.props : RegOp N T V → List N
  | .component _ ns => ns
  | .properties ns => ns
  | .unset _ _ => []

/-- The component an operation registers. -/
def RegOp.component? : RegOp N T V → Option T
  | .component t _ => some t
  | _ => none

/-- A history without panic. -/
def regHistory (dflt : V) (ops : List (RegOp N T V)) : Option (Reg N T V) :=
  ops.foldlM (RegOp.run dflt) Reg.empty

/-- The value an operation gives to the property with name `n` and id `i` on `unset`. -/
def RegOp.setsUnset (n : N) (i : Nat) : RegOp N T V → Option V
  | .unset (.id j) v => if j = i then some v else none
  | .unset (.name m) v => if m = n then some v else none
  | _ => none

/-- What an application does with a css registry. -/
inductive CssOp (C N : Type) where
  | property (n : C) (p : Ref N)
  | shorthand (n : C) (ps : List (Ref N))

/-- One operation; `none` is a panic. -/
def CssOp.run (c : Css C N) : CssOp C N → Option (Css C N)
  | .property n p => c.registerProperty n p
  | .shorthand n ps => c.registerShorthand n ps

/-- The name an operation registers. -/
def CssOp.name : CssOp C N → C
  | .property n _ => n
  | .shorthand n _ => n

def CssOp.isShorthand : CssOp C N → Bool
  | .shorthand _ _ => true
  | .property _ _ => false

/-- A history without panic. -/
def cssHistory (ops : List (CssOp C N)) : Option (Css C N) := ops.foldlM CssOp.run Css.empty

end Flair.Spec
