import Verif.Model.Values
import Verif.Model.Tree
/-!
# Model of the computation of property values over the UI tree

`NodeProperties::compute_pending_property_values_for_root` / `_with_parent`
(crates/bevy_flair_style/src/components.rs:514-606), `compute_property_values`
(crates/bevy_flair_style/src/systems.rs:1020-1080) and the part of `apply_computed_properties` that moves
the pending computed values into the computed ones (components.rs:737-797).

A `PropertyMap` is a function of the property (`P → _`), `none` stands for the empty map
`PropertyMap::default()`; `Props/Values.lean` (C18) justifies treating maps as values.
Simplifications: values that are placeholders for assets are not modelled (`resolve_placeholders`).
-/
namespace Flair.Inherit
open Flair.Values Flair.Tree

variable {E P V : Type}

/-- `StaticPropertyMaps` (components.rs:409-416): registered unset behaviour and initial value. -/
structure Static (P V : Type) where
  unset : P → PropertyValue V
  initial : P → V

/-- The fields of `NodeProperties` (components.rs:443-463) this computation uses.
`shared` is the outcome of `pending_computed_values.ptr_eq(&computed_values)` as seen by the children. -/
structure Node (P V : Type) where
  pending : Option (P → PropertyValue V)
  propValues : Option (P → PropertyValue V)
  computed : P → ComputedValue V
  pendingComputed : Option (P → ComputedValue V)
  shared : Bool

/-- What the computation cannot see and the model leaves arbitrary: whether the two maps happen to
share storage when they are equal, and for which properties `create_transitions`
(components.rs:599-681) starts a transition and so already moves `computed_values` to the new value. -/
structure Oracle (E P : Type) where
  sharing : E → Bool
  transition : E → P → Bool

variable [DecidableEq (P → ComputedValue V)] [DecidableEq V]

/-- The common end of both functions: store `pending_computed_values`, then `create_transitions`,
which sets `computed_values[p]` to the pending value for the properties that start a transition.
`ptr_eq` can be true only if both maps have the same contents (C18). -/
def finish (o : Oracle E P) (e : E) (n : Node P V) (pc : P → ComputedValue V) : Node P V :=
  { n with
    pendingComputed := some pc
    computed := fun p => if o.transition e p then pc p else n.computed p
    shared := o.sharing e && decide (pc = n.computed) }

/-- `compute_pending_property_values_for_root` (components.rs:511-542).  `compute` panics only for a
property whose registered unset behaviour is `unset` (C14); `getD` is then arbitrary. -/
def computeRoot (s : Static P V) (o : Oracle E P) (e : E) (n : Node P V) : Node P V :=
  match n.pending with
  | none => finish o e n n.computed
  | some m =>
    finish o e { n with pending := none, propValues := some m }
      (fun p => (compute (m p) (s.unset p) (s.initial p) none).getD none)

/-- `compute_pending_property_values_with_parent` (components.rs:544-595). -/
def computeWithParent (s : Static P V) (o : Oracle E P) (e : E) (parent : Node P V) (n : Node P V) : Node P V :=
  let parentPending : P → ComputedValue V := parent.pendingComputed.getD (fun _ => none)
  match n.pending with
  | none =>
    finish o e n
      (if parent.shared then n.computed
       else match n.propValues with
        | none => n.computed
        | some m => fun p => if m p = .inherit then parentPending p else n.computed p)
  | some m =>
    finish o e { n with pending := none, propValues := some m }
      (fun p => (compute (m p) (s.unset p) (s.initial p) (some (parentPending p))).getD none)

/-- The `NodeProperties` components of the world (`none`: the entity has none). -/
abbrev World (E P V : Type) := E → Option (Node P V)

/-- Write one entity. -/
def World.put [DecidableEq E] (w : World E P V) (e : E) (n : Node P V) : World E P V :=
  fun x => if x = e then some n else w x

/-- The inner loop of `compute_property_values` (systems.rs:1060-1076) for one pair:
`get_many_mut([parent, entity])` or `continue`. -/
def stepChild [DecidableEq E] (s : Static P V) (o : Oracle E P) (w : World E P V) (pe : E × E) : World E P V :=
  match w pe.1, w pe.2 with
  | some par, some n => w.put pe.2 (computeWithParent s o pe.2 par n)
  | _, _ => w

/-- The sequence yielded by `iter_ui_descendants_with_parent` (custom_iterators.rs:45-50);
C17 shows that this number of calls of `next` always suffices. -/
def descendantsWithParent (f : Forest E) (e : E) : List (E × E) :=
  (bfsCollect f (f.nodes.length + 1) (bfsNew f e)).getD []

/-- `compute_property_values` (systems.rs:1023-1083): for every root (the `?` stops the whole system
when a root has no `NodeProperties`), then its descendants breadth first. -/
def computePass [DecidableEq E] (s : Static P V) (o : Oracle E P) (f : Forest E) :
    List E → World E P V → World E P V
  | [], w => w
  | r :: roots, w =>
    match w r with
    | none => w
    | some n =>
      computePass s o f roots
        ((descendantsWithParent f r).foldl (stepChild s o) (w.put r (computeRoot s o r n)))

/-- `set_property_values` (systems.rs:841-914): nodes whose style was recalculated get a new
(non empty) pending map. -/
def setPending (u : E → Option (P → PropertyValue V)) (w : World E P V) : World E P V :=
  fun e => (w e).map fun n => match u e with
    | none => n
    | some m => { n with pending := some m }

/-- `NodeProperties::apply_computed_properties` / `clear_pending_computed_properties`
(components.rs:726-797), restricted to the computed values: they become the pending ones. -/
def applyComputed (w : World E P V) : World E P V :=
  fun e => (w e).map fun n => { n with computed := n.pendingComputed.getD n.computed, pendingComputed := none }

/-- `set_pending_compute_property_values` (systems.rs:1013-1020), used when no node was recalculated. -/
def passNoChange (w : World E P V) : World E P V :=
  fun e => (w e).map fun n => { n with pendingComputed := some n.computed }

/-- One frame, from `SetPropertyValues` to `ApplyComputedProperties` (lib.rs:355-445):
`anyChanged` is `GlobalChangeDetection::any_property_value_changed`. -/
def frame [DecidableEq E] (s : Static P V) (o : Oracle E P) (f : Forest E) (roots : List E)
    (u : E → Option (P → PropertyValue V)) (anyChanged : Bool) (w : World E P V) : World E P V :=
  let w := setPending u w
  applyComputed (if anyChanged then computePass s o f roots w else passNoChange w)

end Flair.Inherit
