import Verif.Model.F32
/-!
# Model of `Animation`

`crates/bevy_flair_style/src/animations/animation.rs`.  The sampled curve is a parameter of `sampleValue`.
-/
namespace Flair.Animation
variable {V : Type}

/-- `AnimationDirection` (15-26) -/
inductive Direction where
  | normal
  | reverse
  | alternate
  | alternateReverse
deriving DecidableEq

/-- `AnimationState` (58-77) -/
inductive AState where
  | pending
  | running
  | justFinished
  | finished
  | canceled
deriving DecidableEq

/-- `AnimationFillMode` (90-107) -/
inductive Fill where
  | none
  | forwards
  | backwards
  | both
deriving DecidableEq

/-- `is_forwards` (110-112) -/
def Fill.isForwards (f : Fill) : Bool := f = .forwards || f = .both

/-- `is_backwards` (115-117) -/
def Fill.isBackwards (f : Fill) : Bool := f = .backwards || f = .both

/-- `AnimationOptions` (122-135).  `count`: `none` is `Infinite`, `some n` is `Count(n)`.  Times are in
nanoseconds. -/
structure Options where
  delay : Nat
  duration : Nat
  direction : Direction
  count : Option Nat
  fill : Fill
  paused : Bool

/-- `u32::MAX` -/
def u32Max : Nat := 4294967295

/-- `Animation` (196-229).  `elapsed` and `paused` are the stopwatch, `current` and `max` the iteration
state (`none`: infinite), `reversed` the current direction. -/
structure Anim where
  delay : Nat
  duration : Nat
  elapsed : Nat
  paused : Bool
  current : Nat
  max : Option Nat
  reversed : Bool
  state : AState
  direction : Direction
  fill : Fill

/-- `is_on_last_iteration` (346-354).  For `max = 0` (excluded by a debug assertion) the subtraction is
truncated. -/
def Anim.onLast (a : Anim) : Bool :=
  match a.max with
  | some m => a.current ≥ m - 1
  | none => false

/-- `current_iteration_delay` (375-377) -/
def Anim.iterDelay (a : Anim) : Nat := if a.current = 0 then a.delay else 0

/-- `current_iteration_duration` (379-381) -/
def Anim.iterDuration (a : Anim) : Nat := a.duration + a.iterDelay

/-- `total_elapsed` (384-397) -/
def Anim.totalElapsed (a : Anim) : Nat :=
  a.current * a.duration + (if a.current > 0 then a.delay else 0) + min a.elapsed a.iterDuration

/-- `is_active` (401-408) -/
def Anim.isActive (a : Anim) : Bool :=
  match a.state with
  | .running | .justFinished => true
  | .pending => a.fill.isBackwards
  | .finished => a.fill.isForwards
  | .canceled => false

/-- `cancel` (431-433) -/
def Anim.cancel (a : Anim) : Anim := { a with state := .canceled }

/-- `can_be_ticked` (435-440) -/
def Anim.canTick (a : Anim) : Bool :=
  a.state = .pending || a.state = .running || a.state = .justFinished

/-- `iterate` (492-516), `u32` saturation included -/
def Anim.iterate (a : Anim) : Anim :=
  { a with
    current := match a.max with
      | none => min (a.current + 1) u32Max
      | some m => min (min (a.current + 1) u32Max) m
    reversed := match a.direction with
      | .alternate | .alternateReverse => !a.reversed
      | _ => a.reversed }

/-- The loop of `iterate_if_necessary` (473-490), with a bound on the number of rounds; `none`: it needs
more rounds. -/
def Anim.loop : Nat → Anim → Option Anim
  | 0, _ => none
  | f + 1, a =>
    if a.elapsed ≥ a.iterDuration then
      if a.onLast then some { a with state := .justFinished, elapsed := a.iterDuration }
      else Anim.loop f ({ a with elapsed := a.elapsed - a.iterDuration } : Anim).iterate
    else some a

/-- `tick` (443-468) and `iterate_if_necessary` (475-483); `Stopwatch::tick` does nothing when paused. -/
def Anim.tick (fuel : Nat) (a : Anim) (delta : Nat) : Option Anim :=
  if !a.canTick then some a
  else
    let e := if a.paused then a.elapsed else a.elapsed + delta
    if a.state = .justFinished then
      if e > a.elapsed then some { a with elapsed := e, state := .finished } else some { a with elapsed := e }
    else
      let b := { a with elapsed := e }
      let c := if b.state = .pending ∧ b.elapsed ≥ b.iterDelay then { b with state := .running } else b
      if c.state = .running then c.loop fuel else some c

/-- `tick` returns `b`. -/
def Anim.Ticks (a : Anim) (delta : Nat) (b : Anim) : Prop := ∃ fuel, a.tick fuel delta = some b

/-- The fields set by `update_options` before it ticks (299-328). -/
def restart (o : Options) : Anim :=
  { delay := o.delay, duration := o.duration, elapsed := 0, paused := false, current := 0, max := o.count,
    reversed := match o.direction with
      | .normal | .alternate => false
      | .reverse | .alternateReverse => true
    state := if o.count = some 0 then .finished else .pending, direction := o.direction, fill := o.fill }

/-- `update_options` (297-343) returns `b`. -/
def Anim.Updates (a : Anim) (o : Options) (b : Anim) : Prop :=
  ∃ c d, (if a.totalElapsed > 0 then (restart o).Ticks a.totalElapsed c else c = restart o) ∧
    (if a.state = .finished ∧ c.state = .justFinished then c.Ticks 1000000 d else d = c) ∧
    b = { d with paused := o.paused }

/-- `Animation::new` (268-292): `update_options` on a fresh value, whose total elapsed time is 0. -/
def new (o : Options) : Anim := { restart o with paused := o.paused }

/-- `transform_t` (180-186) -/
def Anim.transform (a : Anim) (t : ℚ) : ℚ := if a.reversed then 1 - t else t

/-- `sample_value` (519-543) -/
def Anim.sampleValue (curve : ℚ → V) (a : Anim) : Option V :=
  match F32.div (secs a.elapsed - secs a.iterDelay) (secs a.duration) with
  | .num t =>
    if 0 ≤ t ∧ t ≤ 1 ∧ (a.state = .running ∨ a.state = .justFinished) then some (curve (a.transform t))
    else if t < 0 ∧ a.fill.isBackwards then some (curve (a.transform 0))
    else if 1 ≤ t ∧ a.fill.isForwards then some (curve (a.transform 1))
    else none
  | .ninf => if a.fill.isBackwards then some (curve (a.transform 0)) else none
  | .pinf => if a.fill.isForwards then some (curve (a.transform 1)) else none
  | .nan => none

end Flair.Animation
