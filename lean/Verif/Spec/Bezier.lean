import Mathlib.Algebra.Order.Field.Rat
import Mathlib.Algebra.Order.Group.Abs
/-!
# What `cubic-bezier()` means (CSS Easing Functions Level 1)
-/
namespace Flair.Spec

/-- The coordinate at `s` of the curve with the control points 0, `a`, `b`, 1. -/
def bezierAt (a b s : ℚ) : ℚ := 3 * a * s * (1 - s) ^ 2 + 3 * b * s ^ 2 * (1 - s) + s ^ 3

/-- `y` is the height of the curve `cubic-bezier(x1, y1, x2, y2)` above `x`, up to `d`: the curve comes to `x` neither
before nor after that height.  (The point itself may be irrational, so it is compared with all the rational points.) -/
def HeightNear (x1 y1 x2 y2 d x y : ℚ) : Prop :=
  ∀ s, 0 ≤ s → s ≤ 1 →
    (bezierAt x1 x2 s ≤ x → bezierAt y1 y2 s ≤ y + d) ∧ (x ≤ bezierAt x1 x2 s → y - d ≤ bezierAt y1 y2 s)

/-- `y` is the height of a point of the curve `cubic-bezier(x1, y1, x2, y2)`, continued by at most `2 d` beyond its ends,
whose time differs from `x` by at most `d`. -/
def OnCurve (x1 y1 x2 y2 d x y : ℚ) : Prop :=
  ∃ s, -(2 * d) ≤ s ∧ s ≤ 1 + 2 * d ∧ |bezierAt x1 x2 s - x| ≤ d ∧ y = bezierAt y1 y2 s

/-- The keywords of CSS and their curves -/
def easeKeywords : List (String × ℚ × ℚ × ℚ × ℚ) :=
  [("ease", 0.25, 0.1, 0.25, 1), ("ease-in", 0.42, 0, 1, 1), ("ease-out", 0, 0, 0.58, 1),
    ("ease-in-out", 0.42, 0, 0.58, 1)]

end Flair.Spec
