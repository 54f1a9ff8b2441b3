import Verif.Model.Keyframes
/-!
# Easing functions: `linear()` and `steps()`

`bevy_flair_css_parser/src/parser/animations.rs` (17-219) and `bevy_flair_style/src/animations/easing.rs`.
Numbers are rational (rounding of `f32` is not modelled).  `cubic-bezier()` is in
`Model/Bezier`.  The tokens are not modelled here: the arguments are taken as already read.
-/
namespace Flair.Easing
open Flair.Keyframes

/-- A control point as written: its position (a percentage, if given), its value. -/
abbrev Point := Option ℚ × ℚ

/-- animations.rs:55-58 -/
def setFirst : List Point → List Point
  | (none, v) :: l => (some 0, v) :: l
  | l => l

/-- animations.rs:65-67 -/
def setLast : List Point → List Point
  | [] => []
  | [(none, v)] => [(some 1, v)]
  | [p] => [p]
  | p :: q :: l => p :: setLast (q :: l)

/-- animations.rs:71-82: the loop, `m` is `previous_valid_progress_value`. -/
def clampFrom (m : ℚ) : List Point → List Point
  | [] => []
  | (none, v) :: l => (none, v) :: clampFrom m l
  | (some p, v) :: l => if p < m then (some m, v) :: clampFrom m l else (some p, v) :: clampFrom p l

/-- animations.rs:95-108: a run of points without position between positions `f` and `t`. -/
def emit (f t : ℚ) (pending : List ℚ) : List (ℚ × ℚ) :=
  pending.zipIdx.map fun x => (f + ((x.2 + 1 : ℕ) : ℚ) * ((t - f) / ((pending.length + 1 : ℕ) : ℚ)), x.1)

/-- animations.rs:86-112: `f` is the position of the last point that has one, `pending` the values of the points after it.
`none`: the search for the next position runs out of the vector (a panic). -/
def fill (f : ℚ) (pending : List ℚ) : List Point → Option (List (ℚ × ℚ))
  | [] => if pending = [] then some [] else none
  | (none, v) :: l => fill f (pending ++ [v]) l
  | (some t, v) :: l => (fill t [] l).map fun out => emit f t pending ++ (t, v) :: out

/-- animations.rs:70-114 on points of which the first has a position -/
def spread : List Point → Option (List (ℚ × ℚ))
  | (some p, v) :: l => (fill p [] (clampFrom p l)).map fun out => (p, v) :: out
  | _ => none

/-- `parse_easing_linear_parameters` (23-114), on the control points.  `none`: a panic. -/
def linearPoints (l : List Point) : Option (List (ℚ × ℚ)) :=
  if l = [] then some []
  else if l.length = 1 then (setFirst l).mapM fun p => p.1.map fun x => (x, p.2)
  else spread (setLast (setFirst l))

/-! ## `easing.rs` -/

/-- `StepPosition` (easing.rs 13-27) -/
inductive StepPosition where
  | jumpStart | jumpEnd | jumpNone | jumpBoth | start | «end»
  deriving DecidableEq

/-- The names of `parse_easing_steps_parameters` (animations.rs 133-139); lower case, see `linear` for the case. -/
def stepPosition (name : String) : Option StepPosition :=
  [("jump-start", .jumpStart), ("jump-end", .jumpEnd), ("jump-none", .jumpNone), ("jump-both", .jumpBoth),
    ("start", .start), ("end", StepPosition.end)].lookup name

/-- `JumpAt` (bevy_math) -/
inductive JumpAt where
  | start | «end» | none | both
  deriving DecidableEq

/-- `From<StepPosition> for JumpAt` (easing.rs 28-39) -/
def StepPosition.jumpAt : StepPosition → JumpAt
  | .jumpStart => .start
  | .jumpEnd => .end
  | .jumpNone => .none
  | .jumpBoth => .both
  | .start => .start
  | .end => .end

/-- the numbers of `JumpAt::eval` (bevy_math) -/
def JumpAt.numbers : JumpAt → ℚ × ℤ
  | .start => (1, 0)
  | .end => (0, 0)
  | .none => (0, -1)
  | .both => (1, 1)

/-- `steps as usize` of an `i32` on a 64-bit machine -/
def asUsize (n : ℤ) : ℕ := if n < 0 then (2 ^ 64 + n).toNat else n.toNat

/-- `usize as isize` -/
def asIsize (n : ℕ) : ℤ := if n < 2 ^ 63 then n else n - 2 ^ 64

/-- `f32::clamp(0.0, 1.0)` -/
def clamp01 (x : ℚ) : ℚ := max 0 (min x 1)

/-- `JumpAt::eval` (bevy_math) -/
def JumpAt.eval (j : JumpAt) (n : ℕ) (t : ℚ) : ℚ :=
  clamp01 (((⌊t * n⌋ : ℚ) + j.numbers.1) / ((max (asIsize n + j.numbers.2) 1 : ℤ) : ℚ))

/-- `EasingFunction` (easing.rs 79-107); the functions that are cubic Bézier curves are left out. -/
inductive EasingFunction where
  | linear
  | linearPoints (points : List (ℚ × ℚ))
  | steps (steps : ℤ) (pos : StepPosition)

/-- easing.rs 112-116 -/
def stepStart : EasingFunction := .steps 1 .jumpStart

/-- easing.rs 118-122 -/
def stepEnd : EasingFunction := .steps 1 .jumpEnd

/-- `parse_easing_steps_parameters` (animations.rs 116-150): the integer and, if there is one, the name (which `Default`
makes `end`) -/
def stepsOf (n : ℤ) : Option String → Option EasingFunction
  | .none => some (.steps n .end)
  | .some name => (stepPosition name).map fun p => .steps n p

/-- `EasingFunctionCurve` (easing.rs 44-50) -/
inductive Curve where
  | steps (n : ℕ) (j : JumpAt)
  | linearPoints (core : List (ℚ × ℚ))
  | singleLinearPoint (x : ℚ)
  | linear

/-- `into_easing_curve` (easing.rs 124-174).  `none`: `UnevenSampleAutoCurve::new` fails.  The `debug_assert` on the domain
is not modelled. -/
def EasingFunction.curve : EasingFunction → Option Curve
  | .linear => some .linear
  | .linearPoints [] => some .linear
  | .linearPoints [p] => some (.singleLinearPoint p.1)
  | .linearPoints (p :: q :: l) => (coreNew ((p :: q :: l) ++ [(0, 0), (1, 1)])).map .linearPoints
  | .steps n pos => some (.steps (asUsize n) pos.jumpAt)

/-- `f32` interpolation (`StableInterpolate`, bevy_math) -/
def lerp (a b t : ℚ) : ℚ := (1 - t) * a + t * b

/-- `sample_clamped` (easing.rs 58-74); `UnevenSampleAutoCurve::sample_clamped` interpolates between the neighbours.
`none`: no samples (`UnevenCore` has at least two). -/
def Curve.sample : Curve → ℚ → Option ℚ
  | .steps n j, t => some (j.eval n (clamp01 t))
  | .linearPoints core, t =>
    (sampleInterp core t).map fun d =>
      match d with
      | .single x => x
      | .between a b s => lerp a b s
  | .singleLinearPoint x, _ => some x
  | .linear, t => some (clamp01 t)

/-- The value of an easing function at `t` -/
def EasingFunction.eval (e : EasingFunction) (t : ℚ) : Option ℚ := e.curve.bind fun c => c.sample t

end Flair.Easing
