import Verif.Model.NodeProps
/-!
# Model of the shared maps and of the marks that decide which nodes are written

The maps of values are shared (`Arc`) and copied when they are changed; two maps are compared by the address of what they
share.  `NodeProps` leaves open which nodes `apply_computed_properties` leaves out; here this is decided as in
`crates/bevy_flair_style/src/systems.rs` (929-1083, 1126-1238) and `components.rs` (512-596, 684-816).

An address is a number; a changed map gets one that was not used before.  (The code changes a map in place when it is not
shared; then no other map has the address, so that the comparisons are the same.)  The maps of different nodes are never
compared, so each node counts its own addresses.  The address 0 is that of `StaticPropertyMaps::empty_computed`.
-/
namespace Flair.Sharing
open Flair.Transition Flair.Animation Flair.NodeProps
variable {V : Type} {n : Nat}

/-- `PropertyMap<ComputedValue>` (core property_map.rs:13-69): the address of the `Arc` and the values. -/
structure Map (n : Nat) (V : Type) where
  addr : Nat
  vals : Fin n → Option V

/-- `ptr_eq` (core property_map.rs:71-75) -/
def Map.ptrEq (a b : Map n V) : Bool := a.addr = b.addr

/-- `set_if_neq` (core property_map.rs:78-90, and of `PropertyMut`, 206-224); `new` is the address of the copy, if one is
made. -/
def Map.setIfNeq [DecidableEq V] (new : Nat) (m : Map n V) (w : Fin n × Option V) : Map n V :=
  if m.vals w.1 = w.2 then m else ⟨new, fun p => if p = w.1 then w.2 else m.vals p⟩

/-- A loop of `set_if_neq` -/
def Map.writes [DecidableEq V] (new : Nat) (m : Map n V) (ws : List (Fin n × Option V)) : Map n V :=
  ws.foldl (Map.setIfNeq new) m

/-- The loop over all the properties (`iter_mut`, `values_mut`, core property_map.rs:240-300) -/
def Map.writeAll [DecidableEq V] (new : Nat) (m : Map n V) (vals : Fin n → Option V) : Map n V :=
  m.writes new ((List.finRange n).map fun p => (p, vals p))

/-- `StaticPropertyMaps::empty_computed` -/
def emptyComputed : Map n V := ⟨0, fun _ => none⟩

/-- What the systems before `set_animation_computed_values` do about the computed values of a node. -/
inductive Compute (n : Nat) (V : Type) where
  /-- no value of any node has changed: `set_pending_compute_property_values` (systems.rs:1012-1020) -/
  | idle
  /-- the style of the node is as before; these are the inherited values that are written, in order (none for a root)
  (components.rs:524-528, 563-577) -/
  | kept (inherited : List (Fin n × Option V))
  /-- the node has a new style (components.rs:529-542, 578-594) -/
  | fresh (vals : Fin n → Option V)

/-- Whether `compute_property_values` is not run. -/
def Compute.isIdle : Compute n V → Bool
  | .idle => true
  | _ => false

/-- `pending_computed_values` of a node with the `computed` values (components.rs:512-596, systems.rs:1012-1020). -/
def pending [DecidableEq V] (new : Nat) (computed : Map n V) : Compute n V → Map n V
  | .idle => computed
  | .kept ws => computed.writes new ws
  | .fresh vals => (emptyComputed : Map n V).writeAll new vals

/-- A node: what `NodeProps` has, the addresses of `computed_values` and `last_computed_animation_values`, the next unused
address and the mark `needs_property_application` (components.rs:92). -/
structure Node (n : Nat) (V : Type) where
  np : NP n V
  caddr : Nat
  laddr : Nat
  next : Nat
  marked : Bool

/-- A node when it is spawned (components.rs:100, 934-953) -/
def spawned : Node n V := ⟨empty, 0, 0, 1, false⟩

/-- What happens to a node in a frame; see `NodeProps.Input`. -/
structure Happens (n : Nat) (V : Type) where
  reset : Bool
  delta : Nat
  topts : Option (Fin n → Option Transition.Options)
  configs : Option (List (Nat × Animation.Options))
  resolve : Nat → Option (List (Fin n × (ℚ → V)))
  compute : Compute n V
  /-- `resolve_placeholders` for a value (systems.rs:1158-1170) -/
  placeholder : Fin n → Option V → Option V

/-- The same as an input of `NodeProps`, for a node that is not left out -/
def Happens.input (i : Happens n V) (pend resolved : Fin n → Option V) : Input n V :=
  { reset := i.reset, delta := i.delta, topts := i.topts, configs := i.configs, resolve := i.resolve,
    pend := pend, resolved := resolved, skip := false }

/-- `pending_computed_animation_values` (components.rs:684-723): the map is copied at the first value. -/
def pendingAnim (env : Env n V) (new : Nat) (s : NP n V) : Map n V :=
  ⟨if (List.finRange n).all fun p => (animValues env s p).isNone then 0 else new, animValues env s⟩

/-- The system `apply_computed_properties` for a node (systems.rs:1214-1238) with `clear_pending_computed_properties`
(components.rs:725-735), the method of the same name (738-816) and `emit_pending_events`; before it `resolve_placeholders`
(systems.rs:1127-1176).  `none`: the debug assertion fails. -/
def applyNode [DecidableEq V] (i : Happens n V) (next : Nat) (marked : Bool) (pend panim : Map n V) (caddr laddr : Nat) (s : NP n V)
    (shown : Shown n V) : Option (Node n V × Shown n V × List (TEv × Fin n) × List (AEv × Nat × Fin n)) :=
  if marked then
    let pend := pend.writeAll (next + 4) fun p => i.placeholder p (pend.vals p)
    if pend.ptrEq ⟨caddr, s.computed⟩ && panim.ptrEq ⟨laddr, s.lastAnim⟩ then
      some (⟨drain { s with lastAnim := panim.vals }, caddr, panim.addr, next + 6, false⟩, shown, s.tevents, s.aevents)
    else
      let r := applyComputed s pend.vals panim.vals false shown
      some (⟨drain r.1, ((⟨caddr, s.computed⟩ : Map n V).writeAll (next + 5) pend.vals).addr, panim.addr, next + 6, false⟩,
        r.2, s.tevents, s.aevents)
  else if (∀ p, pend.vals p = s.computed p) ∧ ∀ p, panim.vals p = s.lastAnim p then
    some (⟨drain s, caddr, laddr, next + 6, false⟩, shown, s.tevents, s.aevents)
  else none

/-- `set_needs_property_application` (systems.rs:929-937) in `set_animation_computed_values` (systems.rs:987-1010) -/
def needsApplication [DecidableEq V] (pend panim computed last : Map n V) : Bool :=
  !pend.ptrEq computed || decide (¬ ∀ p, panim.vals p = last.vals p)

/-- `resolve_animations` (systems.rs:939-985) -/
def newAnimations (fuel : Nat) (env : Env n V) (configs : Option (List (Nat × Animation.Options)))
    (resolve : Nat → Option (List (Fin n × (ℚ → V)))) (s : NP n V) : Option (NP n V) :=
  match configs with
  | some c => setAnimations fuel env resolve s c
  | none => some s

/-- All systems of a frame for one node (lib.rs:361-376). -/
def frame [DecidableEq V] (fuel : Nat) (env : Env n V) (i : Happens n V) (x : Node n V) (shown : Shown n V) :
    Option (Node n V × Shown n V × List (TEv × Fin n) × List (AEv × Nat × Fin n)) :=
  (beforeCreate fuel (i.input (fun _ => none) (fun _ => none)) x.np).bind fun s =>
  let computed : Map n V := ⟨if i.reset then 0 else x.caddr, s.computed⟩
  let last : Map n V := ⟨if i.reset then 0 else x.laddr, s.lastAnim⟩
  let pend := pending x.next computed i.compute
  (if i.compute.isIdle then some s else createTransitions env s pend.vals).bind fun s =>
  let computed := computed.writeAll (x.next + 1) s.computed
  let last := last.writeAll (x.next + 2) s.lastAnim
  -- `set_needs_property_application` in `compute_property_values` (systems.rs:1062, 1078): the pending values of the
  -- animations are still those of the empty `PropertyMap::default()`, which is not equal to a map with a property
  let marked := x.marked || (!i.compute.isIdle && (!pend.ptrEq computed || decide (n ≠ 0)))
  (newAnimations fuel env i.configs i.resolve s).bind fun s =>
  let panim := pendingAnim env (x.next + 3) s
  applyNode i x.next (marked || needsApplication pend panim computed last) pend panim computed.addr last.addr s shown

end Flair.Sharing
