import Verif.Model.Components
/-!
# What applying values to an entity means, and who owns a component
-/
namespace Flair.Spec
open Flair.Components
variable {T V : Type} [DecidableEq T]

/-- What a registry guarantees (C39): component types are distinct and their ranges do not overlap. -/
def GoodRegs (regs : List (Registration T V)) : Prop :=
  regs.Pairwise fun a b => a.type ≠ b.type ∧ ∀ i, ¬ (a.start ≤ i ∧ i < a.stop ∧ b.start ≤ i ∧ i < b.stop)

/-- Property `i` belongs to the component. -/
def Has (r : Registration T V) (i : Nat) : Prop := r.start ≤ i ∧ i < r.stop

/-- The given values are of the types of their properties. -/
def Typed (ok : Nat → V → Bool) (changes : Values V) : Prop := ∀ i v, changes i = some v → ok i v

/-- A component with the given values of its own properties written into it. -/
def written (r : Registration T V) (changes : Values V) (c : Comp V) : Comp V := fun i =>
  if r.start ≤ i ∧ i < r.stop then (changes i).getD (c i) else c i

/-- Who put a component on an entity. -/
inductive Owner where
  | user
  | style
deriving DecidableEq

/-- An entity with the owner of each of its components. -/
structure Owned (T V : Type) where
  entity : Entity T V
  owner : T → Option Owner

/-- What happens to an entity: the application inserts or removes a component, values are applied, or the
automatic removal runs with some computed values. -/
inductive Op (T V : Type) where
  | userInsert (t : T) (c : Comp V)
  | userRemove (t : T)
  | apply (changes : Values V)
  | autoRemove (computed : Values V)

/-- The entity after an operation. -/
def opEntity (ok : Nat → V → Bool) (regs : List (Registration T V)) (e : Entity T V) : Op T V → Entity T V
  | .userInsert t c => { e with world := e.world.put t (some c) }
  | .userRemove t => { e with world := e.world.put t none }
  | .apply ch => applyAll ok regs e ch
  | .autoRemove v => autoRemove regs e v

/-- The owners after an operation: a component that appears without being inserted by the user belongs to
the style, and one that is gone belongs to nobody. -/
def opOwner (before after : World T V) (owner : T → Option Owner) (op : Op T V) : T → Option Owner := fun t =>
  match op with
  | .userInsert u _ => if t = u then some .user else owner t
  | .userRemove u => if t = u then none else owner t
  | _ => if (after t).isNone then none else if (before t).isNone then some .style else owner t

/-- One operation. -/
def opRun (ok : Nat → V → Bool) (regs : List (Registration T V)) (o : Owned T V) (op : Op T V) : Owned T V :=
  let e := opEntity ok regs o.entity op
  ⟨e, opOwner o.entity.world e.world o.owner op⟩

/-- An entity with nothing on it. -/
def bare : Owned T V := ⟨⟨fun _ => none, fun _ => false⟩, fun _ => none⟩

/-- Histories; `allowed` restricts the operations. -/
inductive Lived (ok : Nat → V → Bool) (regs : List (Registration T V)) (allowed : Owned T V → Op T V → Prop) :
    Owned T V → Prop
  | bare : Lived ok regs allowed bare
  | op {o} (h : Lived ok regs allowed o) (x : Op T V) (hx : allowed o x) : Lived ok regs allowed (opRun ok regs o x)

/-- The user leaves the components of the style alone. -/
def Respectful (o : Owned T V) : Op T V → Prop
  | .userInsert t _ => o.owner t ≠ some .style
  | .userRemove t => o.owner t ≠ some .style
  | _ => True

end Flair.Spec
