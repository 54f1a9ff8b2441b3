import Verif.Model.F32
/-!
# Model of `Transition`

`crates/bevy_flair_style/src/animations/transition.rs`, `curves.rs` (58-88, `LinearCurve`),
`easing.rs` (66-72, the linear easing).
-/
namespace Flair.Transition
variable {V : Type}

/-- `TransitionState` (transition.rs:23-33) -/
inductive TState where
  | pending
  | running
  | finished
  | canceled
deriving DecidableEq

/-- `TransitionOptions` (11-19); the timing function is any function, applied as `sample_clamped`. -/
structure Options where
  delay : Nat
  duration : Nat
  ease : F32 → F32

/-- `Transition` (38-75).  The `Timer` (mode `Once`) is `elapsed` and `total`; the interpolation curve is
its start value, `to` and the function `interp` below. -/
structure Tr (V : Type) where
  delay : Nat
  duration : Nat
  elapsed : Nat
  total : Nat
  src : V
  dst : V
  ease : F32 → F32
  curveStart : V
  state : TState
  /-- `reversing_adjusted_start_value` -/
  radj : V
  /-- `reversing_shortening_factor` -/
  factor : ℚ

/-- `interpolation_curve.sample` : `LinearCurve` on the unit interval (curves.rs:58-88), with the
interpolation function of the property type. -/
def sampleCurve (interp : V → V → ℚ → V) (start stop : V) : F32 → Option V
  | .num q => if 0 ≤ q ∧ q ≤ 1 then some (interp start stop q) else none
  | _ => none

/-- `Transition::new` (98-124).  `dflt`: the default value of the property type (reflect.rs:128-130). -/
def new (interp : V → V → ℚ → V) (dflt : V) (src : Option V) (dst : V) (o : Options) : Tr V :=
  let start := src.getD dflt
  let f := interp start dst 0
  { delay := o.delay, duration := o.duration, elapsed := 0, total := o.duration + o.delay,
    src := f, dst := dst, ease := o.ease, curveStart := start, state := .pending, radj := f, factor := 1 }

/-- `elapsed_secs` (139-141) -/
def Tr.elapsedSecs (t : Tr V) : ℚ := max (secs t.elapsed - secs t.delay) 0

/-- `update_for_possibly_reversed_transition` (152-211); `none`: a panic. -/
def Tr.updateReversed [DecidableEq V] (interp : V → V → ℚ → V) (this replaced : Tr V) : Option (Tr V) :=
  if replaced.radj ≠ this.dst then some this
  else
    let progress := (F32.div replaced.elapsedSecs (secs replaced.duration)).clamp
    let out := replaced.ease progress
    match (out.mulAdd replaced.factor (1 - replaced.factor)).abs.clamp with
    | .num factor =>
      match fromSecs (.num (secs this.duration * factor)) with
      | none => none
      | some d =>
        let start := (sampleCurve interp replaced.curveStart replaced.dst out).getD this.src
        some { this with
          radj := replaced.dst, factor := factor, duration := d, elapsed := 0, total := d + this.delay,
          src := start, curveStart := start }
    | _ => none

/-- `from_possibly_reversed_transition` (126-136) -/
def fromPossiblyReversed [DecidableEq V] (interp : V → V → ℚ → V) (dflt : V) (src : Option V) (dst : V)
    (o : Options) (replaced : Tr V) : Option (Tr V) :=
  (new interp dflt src dst o).updateReversed interp replaced

/-- `can_be_ticked` (225-230), also `is_active` (145-150) -/
def Tr.canTick (t : Tr V) : Bool := t.state = .pending || t.state = .running

/-- `tick` (233-246), with `Timer::tick` for `TimerMode::Once`. -/
def Tr.tick (t : Tr V) (delta : Nat) : Tr V :=
  if !t.canTick then t
  else if t.elapsed + delta ≥ t.total then { t with elapsed := t.total, state := .finished }
  else if t.state = .pending ∧ t.elapsed + delta ≥ t.delay then
    { t with elapsed := t.elapsed + delta, state := .running }
  else { t with elapsed := t.elapsed + delta }

/-- `sample_value` (214-223) -/
def Tr.sampleValue (interp : V → V → ℚ → V) (t : Tr V) : Option V :=
  let p := F32.div (secs t.elapsed - secs t.delay) (secs t.duration)
  if p.isNeg || t.state = .pending then some t.src
  else sampleCurve interp t.curveStart t.dst (t.ease p)

/-- Cancelling, as done by `set_transition_options` (components.rs:838-842). -/
def Tr.cancel (t : Tr V) : Tr V := if t.canTick then { t with state := .canceled } else t

/-- The value a transition contributes to its property (`apply_transitions_and_animations`,
components.rs:705-717). -/
def Tr.shown (interp : V → V → ℚ → V) (t : Tr V) : Option V :=
  match t.state with
  | .pending | .running => t.sampleValue interp
  | .finished | .canceled => some t.dst

/-- `EasingFunctionCurve::Linear` (easing.rs:71) -/
def linearEase (t : F32) : F32 := t.clamp

end Flair.Transition
