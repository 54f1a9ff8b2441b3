import Verif.Model.Calc
/-!
# Interpolation of values

`bevy_flair_style/src/animations/reflect.rs` (29-50, 180-441).  Numbers are rational (rounding of `f32` is not modelled).
Warnings and `debug_assert`s are not modelled.
-/
namespace Flair.Interpolate
open Flair.Calc

/-- `f32::lerp` (bevy_math), also what `Vec2::lerp` and `Oklaba::mix` do to each component -/
def lerp (a b t : ℚ) : ℚ := a + (b - a) * t

/-- The first two arms of `interpolate_val` (215-226): values of the same variant -/
def sameVariant (a b : Val) (t : ℚ) : Option Val :=
  match a, b with
  | .len u x, .len v y => if u = v then some (.len u (lerp x y t)) else none
  | .auto, .auto => some .auto
  | _, _ => none

/-- `interpolate_val` (215-250).  The two recursive calls (231, 238) are on values of the same variant, so they end in the
first two arms. -/
def val (a b : Val) (t : ℚ) : Val :=
  match sameVariant a b t with
  | some v => v
  | none =>
    if a.isZero then (sameVariant (b.mul 0) b t).getD (b.mul 0)
    else if b.isZero then (sameVariant a (a.mul 0) t).getD a
    else if 1 ≤ t then b else a

/-- `Vec2` -/
structure Vec2 where
  x : ℚ
  y : ℚ

/-- `InterpolateValue for Vec2` (41-45) -/
def vec2 (a b : Vec2) (t : ℚ) : Vec2 := ⟨lerp a.x b.x t, lerp a.y b.y t⟩

/-- `InterpolateValue for Rot2` (47-51), angles in turns: `slerp` turns the shorter way, by `t` of the angle between. -/
def rot2 (a b : ℚ) (t : ℚ) : ℚ := wrap (a + wrap (b - a) * t)

/-- `Val2` -/
structure Val2 where
  x : Val
  y : Val

/-- `InterpolateValue for Val2` (258-265) -/
def val2 (a b : Val2) (t : ℚ) : Val2 := ⟨val a.x b.x t, val a.y b.y t⟩

/-- A color, as its Oklab components: `interpolate_color` converts to them first. -/
structure Color where
  l : ℚ
  a : ℚ
  b : ℚ
  alpha : ℚ

/-- `interpolate_color` (268-272) -/
def color (p q : Color) (t : ℚ) : Color := ⟨lerp p.l q.l t, lerp p.a q.a t, lerp p.b q.b t, lerp p.alpha q.alpha t⟩

/-- `interpolate_list_with` (188-201) -/
def list {T : Type} (f : T → T → ℚ → T) (a b : List T) (t : ℚ) : List T :=
  if a.length ≠ b.length then a else (a.zip b).map fun p => f p.1 p.2 t

/-- `interpolate_option_with` (203-213) for `f32` -/
def option (a b : Option ℚ) (t : ℚ) : Option ℚ :=
  match a, b with
  | some a, some b => some (lerp a b t)
  | _, _ => none

/-- `ColorStop` (bevy_ui) -/
structure ColorStop where
  color : Color
  point : Val
  hint : ℚ

/-- `interpolate_color_stop` (280-286) -/
def colorStop (a b : ColorStop) (t : ℚ) : ColorStop :=
  ⟨color a.color b.color t, val a.point b.point t, lerp a.hint b.hint t⟩

/-- `AngularColorStop` (bevy_ui) -/
structure AngularColorStop where
  color : Color
  angle : Option ℚ
  hint : ℚ

/-- `interpolate_angular_color_stop` (288-298) -/
def angularColorStop (a b : AngularColorStop) (t : ℚ) : AngularColorStop :=
  ⟨color a.color b.color t, option a.angle b.angle t, lerp a.hint b.hint t⟩

/-- `UiPosition` (bevy_ui) -/
structure UiPosition where
  anchor : Vec2
  x : Val
  y : Val

/-- `interpolate_ui_position` (300-306) -/
def uiPosition (a b : UiPosition) (t : ℚ) : UiPosition :=
  ⟨vec2 a.anchor b.anchor t, val a.x b.x t, val a.y b.y t⟩

/-- `LinearGradient` (bevy_ui); `K`: color spaces, `H`: shapes -/
structure LinearGradient (K : Type) where
  space : K
  angle : ℚ
  stops : List ColorStop

/-- `interpolate_linear_gradient` (308-327) -/
def linearGradient {K : Type} [DecidableEq K] (a b : LinearGradient K) (t : ℚ) : LinearGradient K :=
  if a.space ≠ b.space then a else ⟨a.space, lerp a.angle b.angle t, list colorStop a.stops b.stops t⟩

/-- `RadialGradient` (bevy_ui) -/
structure RadialGradient (K H : Type) where
  space : K
  position : UiPosition
  shape : H
  stops : List ColorStop

/-- `interpolate_radial_gradient` (329-356) -/
def radialGradient {K H : Type} [DecidableEq K] [DecidableEq H] (a b : RadialGradient K H) (t : ℚ) : RadialGradient K H :=
  if a.space ≠ b.space then a
  else if a.shape ≠ b.shape then a
  else ⟨a.space, uiPosition a.position b.position t, a.shape, list colorStop a.stops b.stops t⟩

/-- `ConicGradient` (bevy_ui) -/
structure ConicGradient (K : Type) where
  space : K
  start : ℚ
  position : UiPosition
  stops : List AngularColorStop

/-- `interpolate_conic_gradient` (358-378) -/
def conicGradient {K : Type} [DecidableEq K] (a b : ConicGradient K) (t : ℚ) : ConicGradient K :=
  if a.space ≠ b.space then a
  else ⟨a.space, lerp a.start b.start t, uiPosition a.position b.position t, list angularColorStop a.stops b.stops t⟩

/-- `Gradient` (bevy_ui) -/
inductive Gradient (K H : Type) where
  | linear (g : LinearGradient K)
  | radial (g : RadialGradient K H)
  | conic (g : ConicGradient K)

/-- `interpolate_gradient` (380-398) -/
def gradient {K H : Type} [DecidableEq K] [DecidableEq H] (a b : Gradient K H) (t : ℚ) : Gradient K H :=
  match a, b with
  | .linear a, .linear b => .linear (linearGradient a b t)
  | .radial a, .radial b => .radial (radialGradient a b t)
  | .conic a, .conic b => .conic (conicGradient a b t)
  | a, _ => a

/-- `BackgroundGradient`, `BorderGradient` (412-434) -/
def gradients {K H : Type} [DecidableEq K] [DecidableEq H] : List (Gradient K H) → List (Gradient K H) → ℚ → List (Gradient K H) :=
  list gradient

/-- `ShadowStyle` (bevy_ui) -/
structure ShadowStyle where
  color : Color
  xOffset : Val
  yOffset : Val
  spreadRadius : Val
  blurRadius : Val

/-- `interpolate_shadow_style` (400-408) -/
def shadowStyle (a b : ShadowStyle) (t : ℚ) : ShadowStyle :=
  ⟨color a.color b.color t, val a.xOffset b.xOffset t, val a.yOffset b.yOffset t, val a.spreadRadius b.spreadRadius t,
    val a.blurRadius b.blurRadius t⟩

/-- `BoxShadow` (436-446) -/
def boxShadow : List ShadowStyle → List ShadowStyle → ℚ → List ShadowStyle := list shadowStyle

/-- `TextShadow` (bevy_ui) -/
structure TextShadow where
  offset : Vec2
  color : Color

/-- `interpolate_text_shadow` (446-451) -/
def textShadow (a b : TextShadow) (t : ℚ) : TextShadow := ⟨vec2 a.offset b.offset t, color a.color b.color t⟩

/-- `create_property_transition_with` (123-144) and `LinearCurve` (curves.rs 80-92): the curve from `start` (or the
default of the type) to the end; `none` outside of the unit interval (`Curve::sample`). -/
def transitionCurve {T : Type} (f : T → T → ℚ → T) (dflt : T) (start : Option T) (fin : T) (t : ℚ) : Option T :=
  if 0 ≤ t ∧ t ≤ 1 then some (f (start.getD dflt) fin t) else none

end Flair.Interpolate
