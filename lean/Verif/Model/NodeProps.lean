import Verif.Model.Transition
import Verif.Model.Animation
/-!
# Model of `NodeProperties`: transitions, animations and their values on one node

`crates/bevy_flair_style/src/components.rs` (440-1043) and the systems that call it for each node
(`systems.rs` 851-1068, 1135-1180).  Property ids are the numbers below the number `n` of registered
properties; `ComputedValue` is `Option V`; a map by property id is a function.  The maps `transitions` and
`transitions_options` are hash maps: the order of their iteration (which only affects the order of events of
different properties) is here that of the ids.  The hash map `animations` is a list of entries; what is
proved holds for any order of it.  A run that needs more rounds of an animation's loop than `fuel`, or a
panic, is `none`.
-/
namespace Flair.NodeProps
open Flair.Transition Flair.Animation
variable {V : Type} {n : Nat}

/-- What the node needs to know about the property types: `ReflectAnimatable` (interpolation and default of
the type), and which properties have one (`get_reflect_animatable`, components.rs:465-492). -/
structure Env (n : Nat) (V : Type) where
  interp : Fin n → V → V → ℚ → V
  dflt : Fin n → V
  animatable : Fin n → Bool

/-- `TransitionEventType` -/
inductive TEv where
  | started
  | finished
  | replaced
  | canceled
deriving DecidableEq

/-- `AnimationEventType` -/
inductive AEv where
  | started
  | finished
  | canceled
deriving DecidableEq

/-- An entry of `animations`: the name, and for each animated property the animation and its curve. -/
abbrev Group (n : Nat) (V : Type) := Nat × List (Fin n × Anim × (ℚ → V))

/-- `NodeProperties` (components.rs:443-463), without the values before computation (see `Values`) and the
auto inserted components. -/
structure NP (n : Nat) (V : Type) where
  computed : Fin n → Option V
  lastAnim : Fin n → Option V
  topts : Fin n → Option Transition.Options
  transitions : Fin n → Option (Tr V)
  tevents : List (TEv × Fin n)
  animations : List (Group n V)
  aevents : List (AEv × Nat × Fin n)

/-- `reset` (934-953), also the initial state -/
def empty : NP n V :=
  { computed := fun _ => none, lastAnim := fun _ => none, topts := fun _ => none,
    transitions := fun _ => none, tevents := [], animations := [], aevents := [] }

/-! ## Transitions -/

/-- The entry of the loop of `set_transition_options` (818-852) for property `p`: is its transition
cancelled? -/
def cancels (s : NP n V) (new : Fin n → Option Transition.Options) (p : Fin n) : Bool :=
  (s.topts p).isSome && (new p).isNone &&
    match s.transitions p with
    | some t => t.canTick
    | none => false

/-- `set_transition_options` (818-852).  (The early return for equal options has the same effect.) -/
def setTransitionOptions (s : NP n V) (new : Fin n → Option Transition.Options) : NP n V :=
  { s with
    transitions := fun p => if cancels s new p then (s.transitions p).map Tr.cancel else s.transitions p
    tevents := s.tevents ++ ((List.finRange n).filter (cancels s new)).map fun p => (.canceled, p)
    topts := new }

/-- The outcome of `create_transitions` for one property. -/
structure Slot (V : Type) where
  computed : Option V
  lastAnim : Option V
  transition : Option (Tr V)
  replaced : Bool

/-- The round of `create_transitions` (599-681) for property `p`; `pend` is `pending_computed_values`. -/
def createAt [DecidableEq V] (env : Env n V) (s : NP n V) (pend : Fin n → Option V) (p : Fin n) :
    Option (Slot V) :=
  let keep : Slot V := ⟨s.computed p, s.lastAnim p, s.transitions p, false⟩
  match s.topts p with
  | none => some keep
  | some o =>
    if s.computed p = pend p then some keep
    else match s.computed p, pend p with
      | some src, some dst =>
        if !env.animatable p then some keep
        else match s.transitions p with
          | some prev =>
            (fromPossiblyReversed (env.interp p) (env.dflt p) (some src) dst o prev).map fun t =>
              ⟨some dst, s.lastAnim p, some t, true⟩
          | none =>
            let t := Transition.new (env.interp p) (env.dflt p) (some src) dst o
            some ⟨some dst, some t.src, some t, false⟩
      | _, _ => some keep

/-- `create_transitions` (599-681) -/
def createTransitions [DecidableEq V] (env : Env n V) (s : NP n V) (pend : Fin n → Option V) :
    Option (NP n V) :=
  if h : ∀ p, (createAt env s pend p).isSome then
    some { s with
      computed := fun p => ((createAt env s pend p).get (h p)).computed
      lastAnim := fun p => ((createAt env s pend p).get (h p)).lastAnim
      transitions := fun p => ((createAt env s pend p).get (h p)).transition
      tevents := s.tevents ++
        ((List.finRange n).filter fun p => ((createAt env s pend p).get (h p)).replaced).map
          fun p => (.replaced, p) }
  else none

/-! ## Animations -/

/-- `update_options` of `Animation` (animation.rs:295-342) as a function (see `Anim.Updates`). -/
def updateF (fuel : Nat) (a : Anim) (o : Animation.Options) : Option Anim :=
  let c := if a.totalElapsed > 0 then (restart o).tick fuel a.totalElapsed else some (restart o)
  c.bind fun c =>
    let d := if a.state = .finished ∧ c.state = .justFinished then c.tick fuel 1000000 else some c
    d.map fun d => { d with paused := o.paused }

/-- The cancelled groups in `set_animations` (871-888) -/
def cancelGroup (names : List Nat) (g : Group n V) : Group n V × List (AEv × Nat × Fin n) :=
  if g.1 ∈ names then (g, [])
  else ((g.1, g.2.map fun x => (x.1, x.2.1.cancel, x.2.2)), g.2.map fun x => (.canceled, g.1, x.1))

/-- `animations.iter().all(|(_, a)| a.state == Canceled)`, then `clear` (896-902) -/
def clearCanceled (l : List (Fin n × Anim × (ℚ → V))) : List (Fin n × Anim × (ℚ → V)) :=
  if l.all fun x => x.2.1.state = .canceled then [] else l

/-- The entry of the group in `animations.entry(name).or_default()` (892-895). -/
def lookupGroup (gs : List (Group n V)) (name : Nat) : List (Fin n × Anim × (ℚ → V)) :=
  match gs.find? (fun g => g.1 = name) with
  | some g => g.2
  | none => []

/-- Writing the entry back. -/
def putGroup (gs : List (Group n V)) (name : Nat) (l : List (Fin n × Anim × (ℚ → V))) : List (Group n V) :=
  if gs.any (fun g => g.1 = name) then gs.map fun g => if g.1 = name then (name, l) else g
  else gs ++ [(name, l)]

/-- One round of the second loop of `set_animations` (890-935); `resolve` is `resolve_animation` together
with `create_keyframes_animation_curve`. -/
def setAnimation (fuel : Nat) (env : Env n V) (resolve : Nat → Option (List (Fin n × (ℚ → V))))
    (gs : List (Group n V)) (c : Nat × Animation.Options) : Option (List (Group n V)) :=
  let l := clearCanceled (lookupGroup gs c.1)
  if l = [] then
    match resolve c.1 with
    | none => some (putGroup gs c.1 l)
    | some kfs =>
      some (putGroup gs c.1 ((kfs.filter fun x => env.animatable x.1).map fun x =>
        (x.1, Animation.new c.2, x.2)))
  else
    (l.mapM fun x => (updateF fuel x.2.1 c.2).map fun a => (x.1, a, x.2.2)).map (putGroup gs c.1)

/-- `set_animations` (854-932) -/
def setAnimations (fuel : Nat) (env : Env n V) (resolve : Nat → Option (List (Fin n × (ℚ → V))))
    (s : NP n V) (configs : List (Nat × Animation.Options)) : Option (NP n V) :=
  let rs := s.animations.map (cancelGroup (configs.map (·.1)))
  (configs.foldlM (setAnimation fuel env resolve) (rs.map (·.1))).map fun gs =>
    { s with animations := gs, aevents := s.aevents ++ rs.flatMap (·.2) }

/-! ## Ticking -/

/-- `has_tickable_animations_or_transitions` (960-969) -/
def hasTickable (s : NP n V) : Prop :=
  (∃ p t, s.transitions p = some t ∧ t.canTick = true) ∨
  (∃ g ∈ s.animations, ∃ x ∈ g.2, x.2.1.canTick = true ∧ x.2.1.paused = false)

instance (s : NP n V) : Decidable (hasTickable s) := by
  unfold hasTickable
  exact @instDecidableOr _ _
    (@Nat.decidableExistsFin _ _ fun p =>
      match h : s.transitions p with
      | none => isFalse (by simp)
      | some t => if ht : t.canTick = true then isTrue ⟨t, rfl, ht⟩
          else isFalse (by rintro ⟨_, h1, h2⟩; cases h1; exact ht h2))
    inferInstance

/-- The events of a transition in `tick_animations` (921-941) -/
def tickTEvents (δ : Nat) (t : Tr V) : List TEv :=
  (if t.state = .pending ∧ (t.tick δ).state ≠ .pending then [.started] else []) ++
  (if (t.tick δ).state = .finished then [.finished] else [])

/-- The events of an animation in `tick_animations` (950-970) -/
def tickAEvents (a b : Anim) : List AEv :=
  (if a.state = .pending ∧ b.state ≠ .pending then [.started] else []) ++
  (if (a.state = .pending ∨ a.state = .running) ∧ b.state = .justFinished then [.finished] else [])

/-- The inner loop of `tick_animations` (943-970) over the animations of a group; the flag tells that the
function returned (`return` in 946-948). -/
def tickGroup (fuel δ : Nat) (name : Nat) :
    List (Fin n × Anim × (ℚ → V)) →
    Option (List (Fin n × Anim × (ℚ → V)) × List (AEv × Nat × Fin n) × Bool)
  | [] => some ([], [], false)
  | x :: l =>
    if !x.2.1.canTick then some (x :: l, [], true)
    else
      (x.2.1.tick fuel δ).bind fun b =>
        (tickGroup fuel δ name l).map fun r =>
          ((x.1, b, x.2.2) :: r.1, (tickAEvents x.2.1 b).map (fun e => (e, name, x.1)) ++ r.2.1, r.2.2)

/-- The outer loop (942-972) -/
def tickGroups (fuel δ : Nat) : List (Group n V) → Option (List (Group n V) × List (AEv × Nat × Fin n))
  | [] => some ([], [])
  | g :: gs =>
    (tickGroup fuel δ g.1 g.2).bind fun r =>
      if r.2.2 then some ((g.1, r.1) :: gs, r.2.1)
      else (tickGroups fuel δ gs).map fun q => ((g.1, r.1) :: q.1, r.2.1 ++ q.2)

/-- The events of the tick of the transition of a property (926-941) -/
def tevsAt (δ : Nat) : Option (Tr V) → List TEv
  | some t => tickTEvents δ t
  | none => []

/-- `tick_animations` (971-1026) -/
def tickAnimations (fuel : Nat) (s : NP n V) (δ : Nat) : Option (NP n V) :=
  (tickGroups fuel δ s.animations).map fun r =>
    { s with
      transitions := fun p => (s.transitions p).map fun t => t.tick δ
      tevents := s.tevents ++ (List.finRange n).flatMap fun p =>
        (tevsAt δ (s.transitions p)).map fun e => (e, p)
      animations := r.1
      aevents := s.aevents ++ r.2 }

/-- `clear_finished_and_canceled_animations` (1028-1041) -/
def clearOver (s : NP n V) : NP n V :=
  { s with
    transitions := fun p => (s.transitions p).filter fun t => t.canTick
    animations := s.animations.filter fun g => g.2.all fun x => x.2.1.state ≠ .canceled }

/-- The system `tick_animations` for a node (systems.rs:1061-1064) -/
def tickSystem (fuel : Nat) (s : NP n V) (δ : Nat) : Option (NP n V) :=
  if hasTickable s then (tickAnimations fuel s δ).map clearOver else some s

/-! ## Values -/

/-- The value of the animations for `p` (719-726): the last one that yields a value. -/
def animationValue (gs : List (Group n V)) (p : Fin n) : Option V :=
  ((gs.flatMap (·.2)).filterMap fun x => if x.1 = p then x.2.1.sampleValue x.2.2 else none).getLast?

/-- `apply_transitions_and_animations` (697-724): `pending_computed_animation_values` -/
def animValues (env : Env n V) (s : NP n V) (p : Fin n) : Option V :=
  match animationValue s.animations p with
  | some v => some v
  | none => (s.transitions p).bind fun t => t.shown (env.interp p)

/-- The round of `apply_computed_properties` (765-813) for a property: `some v` is a call of
`apply_change_fn` or (`v = none`) of `invalid_property_value_fn`. -/
def applyAt [DecidableEq V] (pend comp panim last : Option V) : Option (Option V) :=
  if panim.isSome then
    if panim ≠ last.or comp then some panim else none
  else if panim ≠ last then
    if pend ≠ last then some pend else none
  else if comp ≠ pend then some pend else none

/-- The property values of the components, as written by the style system. -/
abbrev Shown (n : Nat) (V : Type) := Fin n → Option V

/-- `apply_computed_properties` (738-816) and the system of this name (systems.rs:1179-1277): the
components' values; `skip`: the node is skipped because it is not marked, or because the maps are the same
objects. -/
def applyComputed [DecidableEq V] (s : NP n V) (pend panim : Fin n → Option V) (skip : Bool)
    (shown : Shown n V) : NP n V × Shown n V :=
  if skip then (s, shown)
  else
    ({ s with computed := pend, lastAnim := panim },
     fun p => match applyAt (pend p) (s.computed p) (panim p) (s.lastAnim p) with
       | some (some v) => some v
       | _ => shown p)

/-! ## A frame -/

/-- What happens to a node in a frame. -/
structure Input (n : Nat) (V : Type) where
  /-- the system `reset_properties` resets the node -/
  reset : Bool
  /-- the time of the frame -/
  delta : Nat
  /-- the new transition options, if the node is re-styled -/
  topts : Option (Fin n → Option Transition.Options)
  /-- the new animations, if they differ from the current ones -/
  configs : Option (List (Nat × Animation.Options))
  /-- the keyframes of the sheet, resolved -/
  resolve : Nat → Option (List (Fin n × (ℚ → V)))
  /-- the newly computed values (the current ones if nothing changed, systems.rs:986-993) -/
  pend : Fin n → Option V
  /-- these after `resolve_placeholders` (systems.rs:1128-1176) -/
  resolved : Fin n → Option V
  /-- the node is skipped by `apply_computed_properties` -/
  skip : Bool

/-- The systems of a frame for one node, up to `SetPropertyValues`, in their order (lib.rs:361-376). -/
def beforeCreate (fuel : Nat) (i : Input n V) (s : NP n V) : Option (NP n V) :=
  (tickSystem fuel (if i.reset then empty else s) i.delta).map fun s =>
    match i.topts with
    | some o => setTransitionOptions s o
    | none => s

/-- The systems of a frame for one node, up to `SetAnimationValues`. -/
def beforeApply [DecidableEq V] (fuel : Nat) (env : Env n V) (i : Input n V) (s : NP n V) :
    Option (NP n V) :=
  ((beforeCreate fuel i s).bind fun s => createTransitions env s i.pend).bind fun s =>
    match i.configs with
    | some c => setAnimations fuel env i.resolve s c
    | none => some s

/-- `emit_pending_events` (1047-1068) -/
def drain (s : NP n V) : NP n V := { s with tevents := [], aevents := [] }

/-- All systems of a frame for one node: the new state, the values in the components, and the events. -/
def frame [DecidableEq V] (fuel : Nat) (env : Env n V) (i : Input n V) (s : NP n V) (shown : Shown n V) :
    Option (NP n V × Shown n V × List (TEv × Fin n) × List (AEv × Nat × Fin n)) :=
  (beforeApply fuel env i s).map fun s =>
    let r := applyComputed s i.resolved (animValues env s) i.skip shown
    (drain r.1, r.2, s.tevents, s.aevents)

/-- When a node can be skipped (`set_needs_property_application`, systems.rs:929-937, is called last with
the final maps; the same objects are equal; placeholders are resolved only in marked nodes). -/
def SkipOk [DecidableEq V] (env : Env n V) (i : Input n V) (s : NP n V) : Prop :=
  i.skip = true → i.resolved = s.computed ∧ animValues env s = s.lastAnim

end Flair.NodeProps
