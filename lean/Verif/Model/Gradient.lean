import Verif.Model.Longhand
/-!
# Model of `crates/bevy_flair_css_parser/src/reflect/gradient.rs`

On the tokens of `Model/Shorthand`.  Angles are in turns and `f32` numbers are rationals.  The parameter `color` is
`parse_color`, on the token it reads.
-/
namespace Flair.Gradient
open Flair.Calc Flair.Values Flair.Shorthand Flair.Longhand

variable {α K T H : Type}

/-- `ColorStop` and `AngularColorStop`: the color, the position (`T` is `Val` or `Option ℚ`), and the hint if one is
given. -/
structure Stop (K T : Type) where
  color : K
  point : T
  hint : Option ℚ

/-- `InterpolationColorSpace` -/
inductive Space where
  | oklab | oklch | oklchLong | srgb | linearRgb | hsl | hslLong | hsv | hsvLong
  deriving DecidableEq

/-- `RadialGradientShape` -/
inductive Shape where
  | closestSide | farthestSide | closestCorner | farthestCorner
  | circle (r : Val)
  | ellipse (x y : Val)
  deriving DecidableEq

/-- `UiPosition`: the anchor (in halves of the size, from the center) and the offsets. -/
structure Position where
  anchorX : Int
  anchorY : Int
  x : Val
  y : Val
  deriving DecidableEq

/-- The direction of a linear gradient; the middle between opposite sides is not defined (without rounding). -/
inductive Dir where
  | turn (q : ℚ)
  | undefined
  deriving DecidableEq

/-! ## `UiPosition` (bevy_ui) -/

/-- `UiPosition::CENTER`, `LEFT`, `RIGHT`, `TOP` and `BOTTOM`. -/
def center : Position := ⟨0, 0, .zero, .zero⟩
@[inherit_doc center] def left : Position := ⟨-1, 0, .zero, .zero⟩
@[inherit_doc center] def right : Position := ⟨1, 0, .zero, .zero⟩
@[inherit_doc center] def top : Position := ⟨0, -1, .zero, .zero⟩
@[inherit_doc center] def bottom : Position := ⟨0, 1, .zero, .zero⟩

/-! ## Keywords -/

/-- `expect_located_ident` followed by `match_ignore_ascii_case!`, on the token it reads. -/
def wordTok (f : String → Option α) : Tok → Option α
  | .ident s => f s
  | _ => none

/-- `parse_circle_or_ellipse_keyword` (reflect/gradient.rs:23-34). -/
def roundWord (s : String) : Option Unit := if s = "circle" then some () else if s = "ellipse" then some () else none

/-- `parse_shape_keyword` (reflect/gradient.rs:47-60). -/
def shapeWord (s : String) : Option Shape :=
  [("closest-side", Shape.closestSide), ("farthest-side", .farthestSide), ("closest-corner", .closestCorner),
    ("farthest-corner", .farthestCorner)].lookup s

/-- `parse_circle_or_ellipse` (reflect/gradient.rs:36-45). -/
def roundP : P Shape := do
  let a ← calcVal
  match ← tryP calcVal with
  | some b => pure (.ellipse a b)
  | none => pure (.circle a)

/-- `parse_radial_gradient_shape` (reflect/gradient.rs:20-79). -/
def shapeP : P (Option Shape) := do
  match ← tryP (tok1 (wordTok roundWord)) with
  | some () => do
    match ← tryP roundP with
    | some s => pure (some s)
    | none => do let s ← tok1 (wordTok shapeWord); pure (some s)
  | none => do
    match ← tryP roundP with
    | some s => pure (some s)
    | none => tryP (tok1 (wordTok shapeWord))

/-- The keywords of `parse_ui_position_case_1` (reflect/gradient.rs:92-104). -/
def anyWord (s : String) : Option Position :=
  [("left", left), ("center", center), ("right", right), ("top", top), ("bottom", bottom)].lookup s

/-- The first keyword of `parse_ui_position_case_2` (reflect/gradient.rs:115-125). -/
def acrossWord (s : String) : Option Position :=
  [("left", left), ("center", center), ("right", right)].lookup s

/-- The second keyword of `parse_ui_position_case_2` (reflect/gradient.rs:131-141). -/
def alongWord (s : String) : Option Position :=
  [("top", top), ("center", center), ("bottom", bottom)].lookup s

/-- `parse_calc_val` or a keyword, as in `parse_ui_position_case_1` and `_2`. -/
def valOrWord (f : Val → Position) (w : String → Option Position) : P Position := do
  match ← tryP calcVal with
  | some v => pure (f v)
  | none => tok1 (wordTok w)

/-- `parse_ui_position_case_1` (reflect/gradient.rs:88-108). -/
def position1 : P Position := valOrWord (fun v => { left with x := v }) anyWord

/-- `parse_ui_position_case_2` (reflect/gradient.rs:111-148). -/
def position2 : P Position := do
  let a ← valOrWord (fun v => { left with x := v }) acrossWord
  let b ← valOrWord (fun v => { top with y := v }) alongWord
  pure { a with anchorY := b.anchorY, y := b.y }

/-- The keywords of `parse_ui_position_case_3` (reflect/gradient.rs:151-177). -/
def leftRight (s : String) : Option Int := [("left", (-1 : Int)), ("right", 1)].lookup s
@[inherit_doc leftRight] def topBottom (s : String) : Option Int := [("top", (-1 : Int)), ("bottom", 1)].lookup s

/-- `parse_ui_position_case_3` (reflect/gradient.rs:151-177). -/
def position3 : P Position := do
  let ax ← tok1 (wordTok leftRight)
  let x ← calcVal
  let ay ← tok1 (wordTok topBottom)
  let y ← calcVal
  pure ⟨ax, ay, x, y⟩

/-- `parse_ui_position` (reflect/gradient.rs:86-193). -/
def positionP : P (Option Position) := do
  match ← tryP (identIs "at") with
  | none => pure none
  | some () => do
    match ← tryP position3 with
    | some p => pure (some p)
    | none => do
      match ← tryP position2 with
      | some p => pure (some p)
      | none => do let p ← position1; pure (some p)

/-- `parse_hue` (reflect/gradient.rs:231-249): whether it is the longer one. -/
def hueP : P Bool := do
  match ← tryP (identIs "longer") with
  | some () => do identIs "hue"; pure true
  | none => do
    match ← tryP (identIs "shorter") with
    | some () => do identIs "hue"; pure false
    | none => pure false

/-- The keywords of `parse_color_space` (reflect/gradient.rs:261-292): the color space with the shorter and, if there is
a choice, with the longer hue. -/
def spaceWord (s : String) : Option (Space × Option Space) :=
  [("oklab", (Space.oklab, none)), ("oklch", (.oklch, some .oklchLong)), ("srgb", (.srgb, none)),
    ("linear-rgb", (.linearRgb, none)), ("hsl", (.hsl, some .hslLong)), ("hsv", (.hsv, some .hsvLong))].lookup s

/-- `parse_color_space` (reflect/gradient.rs:251-293). -/
def spaceP : P (Option Space) := do
  match ← tryP (identIs "in") with
  | none => pure none
  | some () => do
    let s ← tok1 (wordTok spaceWord)
    match s.2 with
    | none => pure (some s.1)
    | some long => do let l ← hueP; pure (some (if l then long else s.1))

/-- The keywords of `parse_gradient_angle_keyword` (reflect/gradient.rs:308-322), in turns: `LinearGradient::TO_RIGHT`
and so on. -/
def sideWord (s : String) : Option ℚ :=
  [("right", (1 / 4 : ℚ)), ("left", -1 / 4), ("top", 0), ("bottom", 1 / 2)].lookup s

/-- `Rot2::nlerp(_, 0.5)` of two of the four sides: the direction in the middle. -/
def middle (a b : ℚ) : Dir :=
  if a = b then .turn a
  else if a - b = 1 / 2 ∨ b - a = 1 / 2 then .undefined
  else if a - b = 3 / 4 ∨ b - a = 3 / 4 then .turn (-3 / 8)
  else .turn ((a + b) / 2)

/-- `parse_linear_gradient_angle` (reflect/gradient.rs:296-331). -/
def angleP : P (Option Dir) := do
  match ← tryP calcAngle with
  | some a => pure (some (.turn a))
  | none => do
    match ← tryP (identIs "to") with
    | none => pure none
    | some () => do
      let a ← tok1 (wordTok sideWord)
      match ← tryP (tok1 (wordTok sideWord)) with
      | some b => pure (some (middle a b))
      | none => pure (some (.turn a))

/-- `parse_conic_gradient_angle` (reflect/gradient.rs:334-343). -/
def fromP : P (Option ℚ) := do
  match ← tryP (identIs "from") with
  | none => pure none
  | some () => do let a ← calcAngle; pure (some a)

/-- `combined_parse` (utils.rs:104-131) for two parsers. -/
def combined2 {A B : Type} (p : P (Option A)) (q : P (Option B)) : P (Option (Option A × Option B)) := do
  let a ← p
  let b ← q
  pure (if a.isSome || b.isSome then some (a, b) else none)

/-- `combined_parse` (utils.rs:104-131) for three parsers. -/
def combined3 {A B C : Type} (p : P (Option A)) (q : P (Option B)) (r : P (Option C)) :
    P (Option (Option A × Option B × Option C)) := do
  let a ← p
  let b ← q
  let c ← r
  pure (if a.isSome || (b.isSome || c.isSome) then some (a, b, c) else none)

/-! ## Stops -/

/-- The result of `parse_linear_color_stop` and `parse_angular_color_stop`, given the positions. -/
def stopsAt (auto : T) (k : K) (ps : List T) : List (Stop K T) :=
  if ps.isEmpty then [⟨k, auto, none⟩] else ps.map fun p => ⟨k, p, none⟩

/-- `parse_linear_color_stop` and `parse_angular_color_stop` (reflect/gradient.rs:195-223). -/
def stopP (color : Tok → Option K) (point : P T) (auto : T) : P (List (Stop K T)) := do
  let k ← tok1 color
  let ps ← loop point
  pure (stopsAt auto k ps)

/-- `expect_percentage` (the value is a part of one), on the token it reads -/
def percentTok : Tok → Option ℚ
  | .percentage q => some (q / 100)
  | _ => none

/-- `stops.last_mut().unwrap().hint = hint` -/
def setHint (h : ℚ) : List (Stop K T) → List (Stop K T)
  | [] => []
  | [s] => [{ s with hint := some h }]
  | s :: t :: ss => s :: setHint h (t :: ss)

/-- The end of the closures of the three functions (reflect/gradient.rs:410-418, 467-475, 518-526). -/
def stopPart (stop : P (List (Stop K T))) (acc : List (Stop K T)) : P (List (Stop K T)) :=
  if acc.isEmpty then do let ss ← stop; pure (acc ++ ss)
  else do
    match ← tryP (tok1 percentTok) with
    | some h => pure (setHint h acc)
    | none => do let ss ← stop; pure (acc ++ ss)

/-- The loop of `parse_comma_separated_with` (lib.rs:221-223) over these closures; every round takes a comma, so the
number of tokens bounds the rounds. -/
def stopLoop (stop : P (List (Stop K T))) : Nat → List (Stop K T) → P (List (Stop K T))
  | 0, acc => pure acc
  | n + 1, acc => do
    match ← tryP comma with
    | none => pure acc
    | some () => do let acc' ← stopPart stop acc; stopLoop stop n acc'

/-- All the further rounds. -/
def stopRounds (stop : P (List (Stop K T))) (acc : List (Stop K T)) : P (List (Stop K T)) := fun ts => stopLoop stop ts.length acc ts

/-- The first round of the closures (reflect/gradient.rs:396-418, 442-475, 496-526). -/
def firstPart (head : P (Option H)) (stop : P (List (Stop K T))) : P (Option H × List (Stop K T)) := do
  match ← head with
  | some h => pure (some h, [])
  | none => do let ss ← stopPart stop []; pure (none, ss)

/-- `insert_zero_stop_if_missing` (reflect/gradient.rs:356-370). -/
def insertZero (isZero : T → Bool) (zero : T) : List (Stop K T) → List (Stop K T)
  | [] => []
  | s :: ss => if isZero s.point then s :: ss else { s with point := zero } :: s :: ss

/-- `parse_linear_gradient`, `parse_radial_gradient` and `parse_conic_gradient` (reflect/gradient.rs:388-538): the first
parameter and the stops. -/
def gradientArgs (head : P (Option H)) (stop : P (List (Stop K T))) (isZero : T → Bool) (zero : T) :
    P (Option H × List (Stop K T)) := do
  let r ← firstPart head stop
  let ss ← stopRounds stop r.2
  if ss.isEmpty then fail else pure (r.1, insertZero isZero zero ss)

/-- `Gradient`: its parameters (with their defaults) and stops. -/
inductive Gradient (K : Type) where
  | linear (angle : Dir) (space : Option Space) (stops : List (Stop K Val))
  | radial (shape : Shape) (position : Position) (space : Option Space) (stops : List (Stop K Val))
  | conic (start : ℚ) (position : Position) (space : Option Space) (stops : List (Stop K (Option ℚ)))

/-- `insert_zero_color_stop_if_missing` (reflect/gradient.rs:372-378): which positions count as zero. -/
def zeroVal (v : Val) : Bool := v = .zero || v = .auto

/-- `insert_zero_angular_color_stop_if_missing` (reflect/gradient.rs:380-386): which angles count as zero. -/
def zeroAngle (a : Option ℚ) : Bool := a = none || a = some 0

/-- `parse_linear_gradient` (reflect/gradient.rs:388-430). -/
def linearArgs (color : Tok → Option K) : P (Gradient K) := do
  let r ← gradientArgs (combined2 angleP spaceP) (stopP color calcVal .auto) zeroVal .zero
  pure (.linear ((r.1.bind (·.1)).getD (.turn (1 / 2))) (r.1.bind (·.2)) r.2)

/-- `parse_radial_gradient` (reflect/gradient.rs:432-485). -/
def radialArgs (color : Tok → Option K) : P (Gradient K) := do
  let r ← gradientArgs (combined3 shapeP positionP spaceP) (stopP color calcVal .auto) zeroVal .zero
  pure (.radial ((r.1.bind (·.1)).getD .farthestCorner) ((r.1.bind (·.2.1)).getD center) (r.1.bind (·.2.2)) r.2)

/-- `parse_conic_gradient` (reflect/gradient.rs:487-538). -/
def conicArgs (color : Tok → Option K) : P (Gradient K) := do
  let r ← gradientArgs (combined3 fromP positionP spaceP)
    (stopP color (do let a ← calcAngle; pure (some a)) none) zeroAngle (some 0)
  pure (.conic ((r.1.bind (·.1)).getD 0) ((r.1.bind (·.2.1)).getD center) (r.1.bind (·.2.2)) r.2)

/-- `parse_gradient` (reflect/gradient.rs:540-570). -/
def gradientP (color : Tok → Option K) : P (Gradient K)
  | .func name args :: ts =>
    if name = "linear-gradient" then (nested (linearArgs color) args).bind fun g => .ok (g, ts)
    else if name = "radial-gradient" then (nested (radialArgs color) args).bind fun g => .ok (g, ts)
    else if name = "conic-gradient" then (nested (conicArgs color) args).bind fun g => .ok (g, ts)
    else .err
  | _ => .err

/-- The loop of `parse_comma_separated_with` (lib.rs:221-223); every round takes a comma. -/
def commaLoop (p : P α) : Nat → P (List α)
  | 0 => pure []
  | n + 1 => do
    match ← tryP comma with
    | none => pure []
    | some () => do let a ← p; let as ← commaLoop p n; pure (a :: as)

/-- All the rounds. -/
def commaRounds (p : P α) : P (List α) := fun ts => commaLoop p ts.length ts

/-- `parse_comma_separated_with` (lib.rs:215-225). -/
def commaSep (p : P α) : P (List α) := do
  let a ← p
  let as ← commaRounds p
  pure (a :: as)

/-- `parse_background_gradient` and `parse_border_gradient` (reflect/gradient.rs:572-582). -/
def gradientsP (color : Tok → Option K) : P (RV (List (Gradient K))) := do
  let gs ← commaSep (gradientP color)
  pure (.other gs)

end Flair.Gradient
