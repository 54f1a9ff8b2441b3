import Verif.Model.AnimParse
/-!
# Cubic Bézier easing: `bevy_flair_style/src/animations/curves.rs` (7-58) and `easing.rs`

The curve itself is `CubicSegment` of the crate bevy_math (0.18), modelled after its source from memory: it is not part
of the repository.  Numbers are rational (rounding of `f32` is not modelled).
-/
namespace Flair.Bezier
open Flair.AnimParse (Timing)
open Flair.Easing (clamp01 StepPosition)

/-- The coefficients of `CubicSegment::new_bezier` in one dimension, for the points 0, `a`, `b`, 1: of `t`, `t²`, `t³`. -/
structure Coeffs where
  c1 : ℚ
  c2 : ℚ
  c3 : ℚ

/-- `CubicSegment::new_bezier` (bevy_math) -/
def coeffs (a b : ℚ) : Coeffs := ⟨3 * a, 3 * b - 6 * a, 3 * a - 3 * b + 1⟩

/-- `CubicSegment::position` (bevy_math) -/
def Coeffs.position (c : Coeffs) (t : ℚ) : ℚ := ((c.c3 * t + c.c2) * t + c.c1) * t

/-- `CubicSegment::velocity` (bevy_math) -/
def Coeffs.velocity (c : Coeffs) (t : ℚ) : ℚ := (3 * c.c3 * t + 2 * c.c2) * t + c.c1

/-- `CubicBezierEaseCurve` (curves.rs:7-11): the segments in the two dimensions. -/
structure EaseCurve where
  x : Coeffs
  y : Coeffs

/-- `CubicBezierEaseCurve::new` (curves.rs:32-36) -/
def EaseCurve.new (x1 y1 x2 y2 : ℚ) : EaseCurve := ⟨coeffs x1 x2, coeffs y1 y2⟩

/-- `find_y_given_x` (bevy_math): Newton's method; `n` guesses are left, `y` is the position of the last one, `t` the
next one.  `none`: the value is not a number (a division by 0). -/
def EaseCurve.search (c : EaseCurve) (maxError x : ℚ) : ℕ → ℚ → ℚ → Option ℚ
  | 0, y, _ => some y
  | n + 1, _, t =>
    let error := c.x.position t - x
    if |error| ≤ maxError then some (c.y.position t)
    else if c.x.velocity t = 0 then (if n = 0 then some (c.y.position t) else none)
    else EaseCurve.search c maxError x n (c.y.position t) (t - error / c.x.velocity t)

/-- `MAX_ITERS` (bevy_math) -/
def maxIters : ℕ := 8

/-- `CubicSegment::ease` (bevy_math), `sample_clamped` (curves.rs:22-24). -/
def EaseCurve.sample (c : EaseCurve) (maxError : ℚ) (time : ℚ) : Option ℚ :=
  c.search maxError (clamp01 time) maxIters 0 (clamp01 time)

/-- curves.rs:39-41 -/
def ease : EaseCurve := .new (1 / 4) (1 / 10) (1 / 4) 1

/-- curves.rs:44-46 -/
def easeIn : EaseCurve := .new (21 / 50) 0 1 1

/-- curves.rs:49-51 -/
def easeOut : EaseCurve := .new 0 0 (29 / 50) 1

/-- curves.rs:54-56 -/
def easeInOut : EaseCurve := .new (21 / 50) 0 (29 / 50) 1

/-- `into_easing_curve` and `sample_clamped` (easing.rs 58-74, 124-174) for all the timing functions. -/
def sampleTiming (maxError : ℚ) : Timing → ℚ → Option ℚ
  | .linear, t => Flair.Easing.EasingFunction.linear.eval t
  | .linearPoints l, t => (Flair.Easing.EasingFunction.linearPoints l).eval t
  | .steps n pos, t => (Flair.Easing.EasingFunction.steps n pos).eval t
  | .ease, t => ease.sample maxError t
  | .easeIn, t => easeIn.sample maxError t
  | .easeOut, t => easeOut.sample maxError t
  | .easeInOut, t => easeInOut.sample maxError t
  | .cubicBezier x1 y1 x2 y2, t => (EaseCurve.new x1 y1 x2 y2).sample maxError t

end Flair.Bezier
