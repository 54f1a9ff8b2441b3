import Verif.Model.Interpolate
import Verif.Model.Easing
import Verif.Model.Animation
/-!
# The debug assertions

What the `debug_assert`s of `bevy_flair_style` (crates/bevy_flair_style/src) check: every `…Asserts` below runs the
assertions of one function, and is `false` when one of them fails, which in a build with `debug_assertions` is a panic.
The functions themselves are those of the other models.  Numbers are rational (rounding and NaN are not modelled).
-/
namespace Flair.Debug
open Flair.Calc

/-! ## Interpolation of lengths (animations/reflect.rs) -/

/-- The assertions of `interpolate_val` (reflect.rs 232, 239): the value that replaces the zero is itself zero.  The
recursive calls are on values of the same variant, so they reach no assertion unless the first has failed. -/
def valAsserts (a b : Val) : Bool :=
  match Interpolate.sameVariant a b 0 with
  | some _ => true
  | none =>
    if a.isZero then (b.mul 0).isZero
    else if b.isZero then (a.mul 0).isZero
    else true

/-- The assertions behind `InterpolateValue for Val2` (reflect.rs 258-265) -/
def val2Asserts (a b : Interpolate.Val2) : Bool := valAsserts a.x b.x && valAsserts a.y b.y

/-! ## Easing functions (animations/easing.rs) -/

/-- The assertion of `into_easing_curve` (easing.rs 134-138): the domain of the curve (`UnevenCore::domain`: from its first
to its last sample) is `Interval::UNIT`. -/
def curveAsserts (e : Easing.EasingFunction) : Bool :=
  match e.curve with
  | some (.linearPoints core) => core.head?.map Prod.fst = some 0 && core.getLast?.map Prod.fst = some 1
  | _ => true

/-! ## Animations (animations/animation.rs) -/

open Animation in
/-- The assertion of `is_on_last_iteration` (animation.rs 349) -/
def lastAsserts (a : Anim) : Bool := decide (a.max ≠ some 0)

open Animation in
/-- The assertions in the loop of `iterate_if_necessary` (animation.rs 473-490): those of the calls of
`is_on_last_iteration` (481) and of `iterate` (493), for a number of rounds. -/
def loopAsserts : Nat → Anim → Bool
  | 0, _ => true
  | f + 1, a =>
    if a.elapsed ≥ a.iterDuration then
      lastAsserts a &&
        if a.onLast then true
        else
          let b : Anim := { a with elapsed := a.elapsed - a.iterDuration }
          lastAsserts b && !b.onLast && loopAsserts f b.iterate
    else true

open Animation in
/-- The assertions reached from `tick` (animation.rs 443-468) -/
def tickAsserts (fuel : Nat) (a : Anim) (delta : Nat) : Bool :=
  if !a.canTick then true
  else
    let e := if a.paused then a.elapsed else a.elapsed + delta
    if a.state = .justFinished then true
    else
      let b := { a with elapsed := e }
      let c := if b.state = .pending ∧ b.elapsed ≥ b.iterDelay then { b with state := .running } else b
      if c.state = .running then loopAsserts fuel c else true

open Animation in
/-- The `t` of `sample_value` (animation.rs 520-535), if it gets past the `match` -/
def sampleT (a : Anim) : Option ℚ :=
  match F32.div (secs a.elapsed - secs a.iterDelay) (secs a.duration) with
  | .num t =>
    if 0 ≤ t ∧ t ≤ 1 ∧ (a.state = .running ∨ a.state = .justFinished) then some t
    else if t < 0 ∧ a.fill.isBackwards then some 0
    else if 1 ≤ t ∧ a.fill.isForwards then some 1
    else none
  | .ninf => if a.fill.isBackwards then some 0 else none
  | .pinf => if a.fill.isForwards then some 1 else none
  | .nan => none

open Animation in
/-- The assertions of `sample_value` (animation.rs 537) and `transform_t` (181) -/
def sampleAsserts (a : Anim) : Bool :=
  match sampleT a with
  | some t => decide (0 ≤ t ∧ t ≤ 1)
  | none => true

/-! ## Keyframes (animations/keyframes.rs) -/

open Keyframes in
/-- The assertion of `AnimationKeyframesBuilder::build` (keyframes.rs 493) -/
def buildAsserts {D E : Type} (ks : List (KB D E)) : Bool :=
  decide (2 ≤ (ks.filter fun k => 0 ≤ k.time ∧ k.time ≤ 1).length)

open Keyframes in
/-- The assertions of the loop of `resolve` over the keyframes without an entry (keyframes.rs 285-323): the one of line 303,
which fails when the search finds the keyframe itself (it has no entry, so it does not), and the one of `interpolate_value`
(152).  `prev`: the time of the keyframe before. -/
def midAsserts {V : Type} : ℚ → List (ℚ × Cell V) → Bool
  | _, [] => true
  | _, (t, some _) :: l => midAsserts t l
  | prev, (t, none) :: l =>
    (match nextEntry l with
      | some nx => decide (0 ≤ (t - prev) / (nx.1 - prev) ∧ (t - prev) / (nx.1 - prev) ≤ 1)
      | none => true) && midAsserts t l

open Keyframes in
/-- The assertions of `resolve` for one property (keyframes.rs 263-272, 285-323) and of `AnimationPropertyKeyframe::new`
(51) for its keyframes -/
def columnAsserts {V : Type} (cur : Option V) (l : List (ℚ × Cell V)) : Bool :=
  (l.head?.map (·.1) = some 0 && l.getLast?.map (·.1) = some 1) &&
    (match fillEnds cur l with
      | (t, _) :: r => midAsserts t r
      | [] => true) &&
    l.all fun x => decide (0 ≤ x.1 ∧ x.1 ≤ 1)

/-! ## The maps of the nodes (components.rs, systems.rs)

A frame runs the systems `reset_properties`, `set_property_values`, `compute_property_values` or
`set_pending_compute_property_values`, `set_animation_computed_values` and `apply_computed_properties` in this order
(lib.rs 360-443).  Of each map of `NodeProperties` only whether it is empty matters here. -/

/-- Which maps of `NodeProperties` (components.rs 430-470) are not empty: `pv`, `pc`, `pa` the pending property values,
computed values and animation values, `comp` the computed values, `last` the last animation values; and whether the component was added since
`reset_properties` last ran (`is_added`, systems.rs 44). -/
structure Maps where
  pv : Bool
  pc : Bool
  pa : Bool
  comp : Bool
  last : Bool
  added : Bool
deriving DecidableEq, Repr

/-- `NodeProperties::default()` -/
def Maps.fresh : Maps := ⟨false, false, false, false, false, true⟩

/-- `NodeProperties::reset` (components.rs 934-953); the empty computed map has an entry for every property
(`from_property_registry` asserts that there are some, 421). -/
def Maps.reset (m : Maps) : Maps := ⟨false, false, false, true, true, m.added⟩

/-- The nodes that exist, with their maps -/
abbrev World (N : Type) := N → Option Maps

/-- What happens to the nodes in a frame. -/
structure Frame (N : Type) where
  /-- nodes despawned before the frame -/
  gone : N → Bool
  /-- nodes spawned before `StyleSystems::Prepare` -/
  spawned : N → Bool
  /-- nodes whose marker asks for a reset (systems.rs 44), or whose style sheet was modified (systems.rs 576-608) -/
  reset : N → Bool
  /-- nodes spawned after `StyleSystems::Prepare` and before `StyleSystems::SetPropertyValues` -/
  spawnedMid : N → Bool
  /-- nodes whose style is calculated again: marked, with a loaded style sheet (systems.rs 861-870) -/
  recalc : N → Bool
  /-- the nodes `compute_property_values` visits, in order (systems.rs 1054-1080), each with its parent -/
  visits : List (Option N × N)
  /-- nodes spawned after `StyleSystems::ComputeProperties` and before `StyleSystems::SetAnimationValues` -/
  spawnedLate : N → Bool
  /-- nodes with a value that differs from the last one (systems.rs 929-937), whose maps are equally full -/
  moved : N → Bool

variable {N : Type}

/-- Does something to one node; `none`: an assertion fails. -/
def onNode [DecidableEq N] (w : World N) (n : N) (f : Maps → Option Maps) : Option (World N) :=
  match w n with
  | none => some w
  | some m => (f m).map fun m' => fun k => if k = n then some m' else w k

/-- Does something to all the nodes (`for … in &mut query`): the nodes are independent of each other.  The outer `none`: an
assertion fails for one of them. -/
noncomputable def onAll (w : World N) (f : N → Maps → Option Maps) : Option (World N) :=
  open Classical in
  if ∀ n m, w n = some m → f n m ≠ none then some fun n => (w n).bind (f n) else none

/-- Spawns nodes. -/
def spawn (w : World N) (s : N → Bool) : World N := fun n => if s n then some .fresh else w n

/-- `reset_properties` (systems.rs 39-51) and `mark_as_changed_on_style_sheet_change` (608) -/
def resetNode (fr : Frame N) (n : N) (m : Maps) : Option Maps :=
  some { (if fr.reset n || m.added then m.reset else m) with added := false }

/-- `set_property_values` (systems.rs 860-905), assertion 892 -/
def setValues (fr : Frame N) (n : N) (m : Maps) : Option Maps :=
  if fr.recalc n then (if m.pv then none else some { m with pv := true }) else some m

/-- Whether `any_property_value_changed` gets set (systems.rs 893, 908-913): the pending map that was empty is compared with
one that is not, so it is whenever a node's style is calculated. -/
def Busy (fr : Frame N) (w : World N) : Prop := ∃ n, fr.recalc n = true ∧ (w n).isSome

/-- `compute_pending_property_values_for_root` (components.rs 511-545), `…_with_parent` (547-600): assertions 497-506, 523
and 553.  `up`: is there a parent, and are its pending computed values set? -/
def computeNode (up : Option Bool) (m : Maps) : Option Maps :=
  if !m.last || m.pc || m.pa then none
  else if up = some false then none
  else if m.pv then some { m with pv := false, pc := true }
  else if up = none ∧ m.comp = false then none
  else some { m with pc := m.comp }

/-- `compute_property_values` (systems.rs 1022-1083).  A visited entity without `NodeProperties`, or whose parent has none,
is skipped (1067-1071). -/
def computeVisit [DecidableEq N] (w : World N) (v : Option N × N) : Option (World N) :=
  match v.1 with
  | none => onNode w v.2 (computeNode none)
  | some p =>
    match w p with
    | none => some w
    | some mp => onNode w v.2 (computeNode (some mp.pc))

/-- The loop of `compute_property_values` -/
def computeAll [DecidableEq N] (w : World N) : List (Option N × N) → Option (World N)
  | [] => some w
  | v :: vs => (computeVisit w v).bind fun w => computeAll w vs

/-- `set_pending_compute_property_values` (systems.rs 1013-1020), assertion 1017 -/
def keepNode (_ : N) (m : Maps) : Option Maps := if m.pc then none else some { m with pc := m.comp }

/-- `NodeProperties::set_animation_computed_values` (components.rs 684-693), assertions 688 and 698 -/
def setAnimation (_ : N) (m : Maps) : Option Maps := if m.pa then none else some { m with pa := true }

/-- `set_needs_property_application` (systems.rs 929-937): an empty map and a full one are never the same. -/
def marked (fr : Frame N) (n : N) (m : Maps) : Bool := m.pc ≠ m.comp || m.pa ≠ m.last || fr.moved n

/-- `apply_computed_properties` (systems.rs 1214-1222, components.rs 726-765).  The assertion of
`clear_pending_computed_properties` (727-731) that the maps are equal, for maps that are equally full, is in
`Model/ReflectValue`; here a node that is not marked has equally full maps. -/
def applyNode (fr : Frame N) (n : N) (m : Maps) : Option Maps :=
  if marked fr n m = false then some { m with pc := false, pa := false }
  else if !m.pc || !m.pa then some m
  else some { m with pc := false, pa := false, comp := true, last := true }

/-- A frame.  `none`: a debug assertion fails. -/
noncomputable def frame [DecidableEq N] (fr : Frame N) (w : World N) : Option (World N) :=
  open Classical in
  let w := spawn (fun n => if fr.gone n then none else w n) fr.spawned
  (onAll w (resetNode fr)).bind fun w =>
  let w := spawn w fr.spawnedMid
  (onAll w (setValues fr)).bind fun w =>
  (if Busy fr w then computeAll w fr.visits else onAll w keepNode).bind fun w =>
  let w := spawn w fr.spawnedLate
  (onAll w setAnimation).bind fun w =>
  onAll w (applyNode fr)

/-- Frames one after the other, from no nodes -/
noncomputable def frames [DecidableEq N] (w : World N) : List (Frame N) → Option (World N)
  | [] => some w
  | fr :: frs => (frame fr w).bind fun w => frames w frs

end Flair.Debug
