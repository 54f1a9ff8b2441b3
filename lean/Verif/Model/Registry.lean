import Mathlib.Data.List.Basic
/-!
# Model of the property registries

`crates/bevy_flair_core/src/registry.rs`.  A property is represented by its canonical name (`N`), a
component by its type id (`T`); ids are natural numbers (they are `u32`, wrapping is not modelled).
`none` is a panic.
-/
namespace Flair.Registry
variable {N T V C : Type} [DecidableEq N] [DecidableEq T] [DecidableEq C]

/-- `PropertyRegistryInner` (173-180).  `names`: the map from canonical names to ids; `regs`: type id,
and the range of ids (component_properties.rs 73-80). -/
structure Reg (N T V : Type) where
  props : List N
  unset : List V
  names : N → Option Nat
  regs : List (T × Nat × Nat)

/-- `PropertyRegistry::default` -/
def Reg.empty : Reg N T V := ⟨[], [], fun _ => none, []⟩

/-- One iteration of `register_properties` (275-289); `dflt` is `PropertyValue::None` -/
def Reg.addProp (dflt : V) (r : Reg N T V) (n : N) : Option (Reg N T V) :=
  if (r.names n).isSome then none
  else some { r with
    props := r.props ++ [n]
    unset := r.unset ++ [dflt]
    names := fun m => if m = n then some r.props.length else r.names m }

/-- `register_properties` (266-289): the registry and the range of ids -/
def Reg.addProps (dflt : V) (r : Reg N T V) (ns : List N) : Option (Reg N T V × Nat × Nat) :=
  (ns.foldlM (Reg.addProp dflt) r).map fun r' => (r', r.props.length, r'.props.length)

/-- `add_registration` (308-322) -/
def Reg.addRegistration (r : Reg N T V) (t : T) (range : Nat × Nat) : Option (Reg N T V) :=
  if r.regs.any (fun x => x.1 = t) then none else some { r with regs := r.regs ++ [(t, range)] }

/-- `register::<T>` (333-341), for a component of type `t` with the properties `ns`
(component_properties.rs 396-435: they are registered, and the range is that of the registration) -/
def Reg.register (dflt : V) (r : Reg N T V) (t : T) (ns : List N) : Option (Reg N T V) :=
  (r.addProps dflt ns).bind fun x => x.1.addRegistration t x.2

/-- `ComponentPropertyRef` (100-105) -/
inductive Ref (N : Type) where
  | id (i : Nat)
  | name (n : N)

/-- `resolve` (207-221): an id is not checked -/
def Reg.resolve (r : Reg N T V) : Ref N → Option Nat
  | .id i => some i
  | .name n => r.names n

/-- `set_unset_value` (294-306); panics when the reference does not resolve or the id is out of range -/
def Reg.setUnset (r : Reg N T V) (p : Ref N) (v : V) : Option (Reg N T V) :=
  (r.resolve p).bind fun i => if i < r.unset.length then some { r with unset := r.unset.set i v } else none

/-- `get_component` (251-256) -/
def Reg.component (r : Reg N T V) (t : T) : Option (T × Nat × Nat) := r.regs.find? fun x => x.1 = t

/-- One component of `create_initial_values_map` (350-361): for each id of the range, the map is set to the
value of that property in the default component. -/
def Reg.initialOf {W : Type} (r : Reg N T V) (value : T → N → W) (m : List (Option W)) (x : T × Nat × Nat) :
    Option (List (Option W)) :=
  (List.range' x.2.1 (x.2.2 - x.2.1)).foldlM (fun m i =>
    r.props[i]?.bind fun n => if i < m.length then some (m.set i (some (value x.1 n))) else none) m

/-- `create_initial_values_map` (340-358), with `assert_all_properties_have_component_registered`
(360-380) -/
def Reg.initialValues {W : Type} (r : Reg N T V) (value : T → N → W) : Option (List W) :=
  if (List.range r.props.length).all (fun i => r.regs.any fun x => x.2.1 ≤ i && i < x.2.2) then
    (r.regs.foldlM (r.initialOf value) (List.replicate r.props.length none)).bind fun m => m.mapM id
  else none

/-! ## Css names -/

/-- `InnerCssPropertyRegistry` (462-465) -/
structure Css (C N : Type) where
  properties : C → Option (Ref N)
  shorthands : C → Option (List (Ref N))

/-- `CssPropertyRegistry::default` -/
def Css.empty : Css C N := ⟨fun _ => none, fun _ => none⟩

/-- `register_property` (584-605).  Both checks look into the map of properties. -/
def Css.registerProperty (c : Css C N) (n : C) (p : Ref N) : Option (Css C N) :=
  if (c.properties n).isSome then none
  else if (c.properties n).isSome then none
  else some { c with properties := fun m => if m = n then some p else c.properties m }

/-- `register_shorthand` (609-630) -/
def Css.registerShorthand (c : Css C N) (n : C) (ps : List (Ref N)) : Option (Css C N) :=
  if (c.shorthands n).isSome then none
  else if (c.properties n).isSome then none
  else some { c with shorthands := fun m => if m = n then some ps else c.shorthands m }

/-- `CssResolveResult` (480-485) -/
inductive Result where
  | property (i : Nat)
  | shorthand (is : List Nat)
deriving DecidableEq

/-- `resolve_property` (531-542) -/
def Css.resolveProperty (c : Css C N) (r : Reg N T V) (n : C) : Option Nat := (c.properties n).bind r.resolve

/-- `resolve_shorthand` (551-567) -/
def Css.resolveShorthand (c : Css C N) (r : Reg N T V) (n : C) : Option (List Nat) :=
  (c.shorthands n).bind fun ps => ps.mapM r.resolve

/-- `resolve` (570-580) -/
def Css.resolve (c : Css C N) (r : Reg N T V) (n : C) : Option Result :=
  match c.resolveShorthand r n with
  | some is => some (.shorthand is)
  | none => (c.resolveProperty r n).map .property

end Flair.Registry
