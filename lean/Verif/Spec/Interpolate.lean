import Verif.Model.Interpolate
/-!
# What interpolation should give

`Same a b`: two values a user cannot tell apart.  For lengths: equal, or both zero (0px is 0%).  Composite values: member
by member.
-/
namespace Flair.Spec
open Flair.Calc (Val LUnit)

/-- The same length -/
def SameVal : Val → Val → Prop
  | .auto, .auto => True
  | .len u x, .len v y => x = y ∧ (u = v ∨ x = 0)
  | _, _ => False

/-- The point at `t` of the way from `x` to `y` -/
def between (x y t : ℚ) : ℚ := (1 - t) * x + t * y

/-- `f` starts at the first value. -/
def StartsAt {T : Type} (same : T → T → Prop) (f : T → T → ℚ → T) (a b : T) : Prop := same (f a b 0) a

/-- `f` arrives at the second value. -/
def EndsAt {T : Type} (same : T → T → Prop) (f : T → T → ℚ → T) (a b : T) : Prop := same (f a b 1) b

/-- One of two lengths is `auto` and the other one is zero. -/
def AutoZero (a b : Val) : Prop := (a = .auto ∧ ∃ u, b = .len u 0) ∨ (b = .auto ∧ ∃ u, a = .len u 0)

end Flair.Spec

namespace Flair.Spec
open Flair.Calc (Val LUnit)
open Flair.Interpolate

/-- Two shadows, up to the units of zeros -/
structure SameShadow (a b : ShadowStyle) : Prop where
  color : a.color = b.color
  xOffset : SameVal a.xOffset b.xOffset
  yOffset : SameVal a.yOffset b.yOffset
  spreadRadius : SameVal a.spreadRadius b.spreadRadius
  blurRadius : SameVal a.blurRadius b.blurRadius

/-- Two color stops, up to the units of zeros -/
structure SameStop (a b : ColorStop) : Prop where
  color : a.color = b.color
  point : SameVal a.point b.point
  hint : a.hint = b.hint

/-- Two positions, up to the units of zeros -/
structure SamePosition (a b : UiPosition) : Prop where
  anchor : a.anchor = b.anchor
  x : SameVal a.x b.x
  y : SameVal a.y b.y

/-- Two gradients, up to the units of zeros -/
def SameGradient {K H : Type} : Gradient K H → Gradient K H → Prop
  | .linear a, .linear b => a.space = b.space ∧ a.angle = b.angle ∧ List.Forall₂ SameStop a.stops b.stops
  | .radial a, .radial b =>
    a.space = b.space ∧ SamePosition a.position b.position ∧ a.shape = b.shape ∧ List.Forall₂ SameStop a.stops b.stops
  | .conic a, .conic b => a.space = b.space ∧ a.start = b.start ∧ SamePosition a.position b.position ∧ a.stops = b.stops
  | _, _ => False

/-- Two shadows that no pair of `auto` and zero keeps from being interpolated -/
def ShadowFits (a b : ShadowStyle) : Prop :=
  ¬ AutoZero a.xOffset b.xOffset ∧ ¬ AutoZero a.yOffset b.yOffset ∧ ¬ AutoZero a.spreadRadius b.spreadRadius ∧
    ¬ AutoZero a.blurRadius b.blurRadius

/-- The same for positions -/
def PositionFits (a b : UiPosition) : Prop := ¬ AutoZero a.x b.x ∧ ¬ AutoZero a.y b.y

/-- Two gradients of the same kind, color space, shape and number of stops, without such pairs -/
def GradientFits {K H : Type} : Gradient K H → Gradient K H → Prop
  | .linear a, .linear b => a.space = b.space ∧ List.Forall₂ (fun p q => ¬ AutoZero p.point q.point) a.stops b.stops
  | .radial a, .radial b => a.space = b.space ∧ a.shape = b.shape ∧ PositionFits a.position b.position ∧
      List.Forall₂ (fun p q => ¬ AutoZero p.point q.point) a.stops b.stops
  | .conic a, .conic b => a.space = b.space ∧ PositionFits a.position b.position ∧
      List.Forall₂ (fun p q => p.angle.isSome = q.angle.isSome) a.stops b.stops
  | _, _ => False

/-- The two ends -/
def HitsEnds {T : Type} (same : T → T → Prop) (f : T → T → ℚ → T) (a b : T) : Prop :=
  StartsAt same f a b ∧ EndsAt same f a b

/-! ## In between -/

/-- `v` is where a length is at `t` of the way from `a` to `b`: between two lengths of the same unit in proportion; zero
has the unit of the other one; and otherwise it jumps at the end. -/
inductive LengthOn (t : ℚ) : Val → Val → Val → Prop
  | same (u x y) : LengthOn t (.len u x) (.len u y) (.len u (between x y t))
  | fromZero (u w y v) : SameVal v (.len w (between 0 y t)) → LengthOn t (.len u 0) (.len w y) v
  | toZero (u w x v) : SameVal v (.len u (between x 0 t)) → LengthOn t (.len u x) (.len w 0) v
  | auto : LengthOn t .auto .auto .auto
  | units (u w x y v) : u ≠ w → x ≠ 0 → y ≠ 0 → v = (if 1 ≤ t then .len w y else .len u x) →
      LengthOn t (.len u x) (.len w y) v
  | fromAuto (w y v) : y ≠ 0 → v = (if 1 ≤ t then .len w y else .auto) → LengthOn t .auto (.len w y) v
  | toAuto (u x v) : x ≠ 0 → v = (if 1 ≤ t then .auto else .len u x) → LengthOn t (.len u x) .auto v

/-- The color at `t` of the way. -/
def ColorOn (t : ℚ) (a b c : Color) : Prop :=
  c.l = between a.l b.l t ∧ c.a = between a.a b.a t ∧ c.b = between a.b b.b t ∧ c.alpha = between a.alpha b.alpha t

/-- The vector at `t` of the way. -/
def VecOn (t : ℚ) (a b c : Vec2) : Prop := c.x = between a.x b.x t ∧ c.y = between a.y b.y t

/-- The shadow at `t` of the way. -/
def ShadowOn (t : ℚ) (a b c : ShadowStyle) : Prop :=
  ColorOn t a.color b.color c.color ∧ LengthOn t a.xOffset b.xOffset c.xOffset ∧ LengthOn t a.yOffset b.yOffset c.yOffset ∧
    LengthOn t a.spreadRadius b.spreadRadius c.spreadRadius ∧ LengthOn t a.blurRadius b.blurRadius c.blurRadius

/-- The color stop at `t` of the way. -/
def StopOn (t : ℚ) (a b c : ColorStop) : Prop :=
  ColorOn t a.color b.color c.color ∧ LengthOn t a.point b.point c.point ∧ c.hint = between a.hint b.hint t

/-- The color stop of a conic gradient at `t` of the way: without an angle there is none in between. -/
def AngularOn (t : ℚ) (a b c : AngularColorStop) : Prop :=
  ColorOn t a.color b.color c.color ∧ c.hint = between a.hint b.hint t ∧
    (∀ x y, a.angle = some x → b.angle = some y → c.angle = some (between x y t)) ∧
    (a.angle = none ∧ b.angle = none → c.angle = none)

/-- The position at `t` of the way. -/
def PositionOn (t : ℚ) (a b c : UiPosition) : Prop :=
  VecOn t a.anchor b.anchor c.anchor ∧ LengthOn t a.x b.x c.x ∧ LengthOn t a.y b.y c.y

/-- `cs` are as many as `as` and `bs`, each at `t` of its way. -/
inductive AllOn {T : Type} (on : T → T → T → Prop) : List T → List T → List T → Prop
  | nil : AllOn on [] [] []
  | cons (a b c as bs cs) : on a b c → AllOn on as bs cs → AllOn on (a :: as) (b :: bs) (c :: cs)

/-- The gradient at `t` of the way. -/
def GradientOn {K H : Type} (t : ℚ) : Gradient K H → Gradient K H → Gradient K H → Prop
  | .linear a, .linear b, .linear c =>
    c.space = a.space ∧ c.angle = between a.angle b.angle t ∧ AllOn (StopOn t) a.stops b.stops c.stops
  | .radial a, .radial b, .radial c => c.space = a.space ∧ c.shape = a.shape ∧
    PositionOn t a.position b.position c.position ∧ AllOn (StopOn t) a.stops b.stops c.stops
  | .conic a, .conic b, .conic c => c.space = a.space ∧ c.start = between a.start b.start t ∧
    PositionOn t a.position b.position c.position ∧ AllOn (AngularOn t) a.stops b.stops c.stops
  | _, _, _ => False

end Flair.Spec
