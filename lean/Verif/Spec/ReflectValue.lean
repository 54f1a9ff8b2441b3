import Verif.Model.ReflectValue
import Verif.Spec.Redraw
/-! # Specification of the equality of values, and of frames in which nothing changes -/
namespace Flair.Spec
open Flair.Transition Flair.Animation Flair.NodeProps Flair.ReflectValue
variable {V : Type} {n : Nat}

/-- Two values of a type are equal by the equality of this type. -/
def EqualAs (T : Types) (t : Ty) (a b : T.U t) : Prop :=
  match t with
  | .f32 => T.eq .f32 a b = true
  | .usize => T.eq .usize a b = true
  | .color => T.eq .color a b = true
  | .val => T.eq .val a b = true
  | .f64 => T.partialEq .f64 a b = some true
  | .other k => T.partialEq (.other k) a b = some true

/-- Every value of the node is equal to itself. -/
def EqualThemselves (eq : V → V → Bool) (s : NP n V) : Prop := ∀ p v, s.computed p = some v → eq v v = true

/-- Nothing is going on on the node: no transition, no animation, no value of one, no event. -/
structure AtRest (s : NP n V) : Prop where
  transitions : ∀ p, s.transitions p = none
  animations : s.animations = []
  values : ∀ p, s.lastAnim p = none
  tevents : s.tevents = []
  aevents : s.aevents = []

/-- A frame after which the style of the node is what it was: nothing is recalculated, or the recalculation gives the same
transitions, animations and values. -/
structure SameStyle (i : Input n V) (s : NP n V) : Prop where
  reset : i.reset = false
  topts : i.topts = none ∨ i.topts = some s.topts
  configs : i.configs = none
  pend : i.pend = s.computed
  resolved : i.resolved = s.computed

/-- What is said of the objects holds. -/
structure Truthful (f : Flags) (pend panim : Fin n → Option V) (s : NP n V) : Prop where
  fresh : f.fresh = false → pend = s.computed
  freshAnim : f.freshAnim = false → panim = s.lastAnim

/-- The values in the components after the writes. -/
def afterWrites (shown : Shown n V) (w : List (Fin n × Option V)) : Shown n V := fun p =>
  match w.find? (fun x => x.1 = p) with
  | some (_, some v) => some v
  | _ => shown p

end Flair.Spec
