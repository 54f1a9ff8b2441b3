import Mathlib.Data.List.Basic
/-!
# Model of the application of values to components

`crates/bevy_flair_core/src/component_properties.rs` (124-335), `apply_computed_properties` and
`auto_remove_components` of `crates/bevy_flair_style/src/systems.rs` (1230-1335).

A component is the map of the values of its properties, by id (the property paths of one component are
taken to be independent, and fields that are not properties are left out).  `ok i v` says that
`try_apply` of `v` on property `i` succeeds.
-/
namespace Flair.Components
variable {T V : Type} [DecidableEq T]

/-- A component value. -/
abbrev Comp (V : Type) := Nat → V

/-- The components of an entity. -/
abbrev World (T V : Type) := T → Option (Comp V)

/-- `PropertyMap<ComputedValue>`; `none` is `ComputedValue::None` -/
abbrev Values (V : Type) := Nat → Option V

/-- `ComponentPropertiesRegistration` (75-80), with the parts of `ComponentFns` that matter. -/
structure Registration (T V : Type) where
  type : T
  start : Nat
  stop : Nat
  autoInsertRemove : Bool
  isMutable : Bool
  default : Comp V

/-- `iter_properties` (338-341) -/
def Registration.ids (r : Registration T V) : List Nat := List.range' r.start (r.stop - r.start)

/-- State of the loop of `internal_apply_values` (124-144). -/
structure Loop (V : Type) where
  comp : Comp V
  values : Values V
  any : Bool
  failed : Bool

/-- One iteration (133-141): the value is taken out of the map; an error stops the loop. -/
def Loop.step (ok : Nat → V → Bool) (l : Loop V) (i : Nat) : Loop V :=
  if l.failed then l
  else match l.values i with
    | none => { l with values := fun j => if j = i then none else l.values j }
    | some v =>
      if ok i v then
        { l with
          comp := fun j => if j = i then v else l.comp j
          values := fun j => if j = i then none else l.values j
          any := true }
      else
        { l with
          values := fun j => if j = i then none else l.values j
          any := true
          failed := true }

/-- `internal_apply_values` (124-144) -/
def internalApply (ok : Nat → V → Bool) (r : Registration T V) (c : Comp V) (vs : Values V) : Loop V :=
  r.ids.foldl (Loop.step ok) ⟨c, vs, false, false⟩

/-- Commands pushed on the `EntityCommandQueue`. -/
inductive Cmd (T V : Type) where
  | insert (t : T) (c : Comp V)
  | autoInserted (t : T)
  | remove (t : T)

/-- The entity during application: its components, the values left and the queue. -/
structure St (T V : Type) where
  world : World T V
  values : Values V
  queue : List (Cmd T V)

/-- Set a component. -/
def World.put (w : World T V) (t : T) (c : Option (Comp V)) : World T V := fun u => if u = t then c else w u

/-- `apply_values_ref` (250-281) -/
def applyRef (ok : Nat → V → Bool) (s : St T V) (r : Registration T V) : St T V :=
  match (s.world r.type).or (if r.autoInsertRemove then some r.default else none) with
  | none => s
  | some c =>
    let l := internalApply ok r c s.values
    if !l.failed && l.any then
      { s with
        values := l.values
        queue := s.queue ++ .insert r.type l.comp ::
          (if (s.world r.type).isNone then [.autoInserted r.type] else []) }
    else { s with values := l.values }

/-- `apply_values_mut` (208-245) -/
def applyMut (ok : Nat → V → Bool) (s : St T V) (r : Registration T V) : St T V :=
  if !r.isMutable then applyRef ok s r
  else match s.world r.type with
    | some c =>
      let l := internalApply ok r c s.values
      { s with world := s.world.put r.type (some l.comp), values := l.values }
    | none =>
      if r.autoInsertRemove then
        let l := internalApply ok r r.default s.values
        if !l.failed && l.any then
          { s with values := l.values, queue := s.queue ++ [.insert r.type l.comp, .autoInserted r.type] }
        else { s with values := l.values }
      else s

/-- An entity between systems: its components and `auto_inserted_components` (components.rs 445). -/
structure Entity (T V : Type) where
  world : World T V
  auto : T → Bool

/-- One command; the event is observed by `observe_on_component_auto_inserted` (systems.rs 1279-1288). -/
def Cmd.run (e : Entity T V) : Cmd T V → Entity T V
  | .insert t c => { e with world := e.world.put t (some c) }
  | .autoInserted t => { e with auto := fun u => if u = t then true else e.auto u }
  | .remove t => { e with world := e.world.put t none }

/-- The application part of `apply_computed_properties` (1250-1276) for one entity and its changes, and the
commands that it queued. -/
def applyAll (ok : Nat → V → Bool) (regs : List (Registration T V)) (e : Entity T V) (changes : Values V) :
    Entity T V :=
  let s := regs.foldl (applyMut ok) ⟨e.world, changes, []⟩
  s.queue.foldl Cmd.run { e with world := s.world }

/-- `auto_remove_deferred` (311-335): whether it removes -/
def removes (r : Registration T V) (w : World T V) (computed : Values V) : Bool :=
  r.autoInsertRemove && (w r.type).isSome && r.ids.all fun i => (computed i).isNone

/-- The loop of `auto_remove_components` (1307-1328): the flags and the queue.  The early `continue` for an
entity without flags (1296-1298) is subsumed by the check of each flag. -/
def removeStep (w : World T V) (computed : Values V) (s : (T → Bool) × List (Cmd T V)) (r : Registration T V) :
    (T → Bool) × List (Cmd T V) :=
  if s.1 r.type then
    if removes r w computed then (fun u => if u = r.type then false else s.1 u, s.2 ++ [.remove r.type]) else s
  else s

/-- `auto_remove_components` (1290-1329) for one entity, with the commands it queued -/
def autoRemove (regs : List (Registration T V)) (e : Entity T V) (computed : Values V) : Entity T V :=
  let s := regs.foldl (removeStep e.world computed) (e.auto, [])
  s.2.foldl Cmd.run { e with auto := s.1 }

end Flair.Components
