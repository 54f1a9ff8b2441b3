import Verif.Spec.Longhand
import Verif.Model.Gradient
/-!
# Specification for gradients
-/
namespace Flair.Spec
open Flair.Calc Flair.Values Flair.Shorthand Flair.Longhand Flair.Gradient

variable {α K T H : Type}

/-- The words of gradients. -/
def gradientWords : List String :=
  ["to", "in", "at", "from", "left", "right", "top", "bottom", "center", "circle", "ellipse", "closest-side",
    "farthest-side", "closest-corner", "farthest-corner", "longer", "shorter", "hue", "none", "auto"]

/-- What is expected of colors: they are neither lengths nor angles, and no comma or word of gradients. -/
structure GradientColors (color : Tok → Option K) : Prop where
  length : ∀ t k, color t = some k → calcVal [t] = .err
  angle : ∀ t k, color t = some k → calcAngle [t] = .err
  comma : color .comma = none
  words : ∀ w ∈ gradientWords, color (.ident w) = none

/-! ## The first parameter -/

/-- The sides, as directions in turns. -/
inductive SideIs : String → ℚ → Prop
  | top : SideIs "top" 0
  | right : SideIs "right" (1 / 4)
  | bottom : SideIs "bottom" (1 / 2)
  | left : SideIs "left" (-1 / 4)

/-- A corner is between two sides. -/
inductive CornerDir : String → String → Dir → Prop
  | same {s q} : SideIs s q → CornerDir s s (.turn q)
  | topRight : CornerDir "top" "right" (.turn (1 / 8))
  | rightTop : CornerDir "right" "top" (.turn (1 / 8))
  | rightBottom : CornerDir "right" "bottom" (.turn (3 / 8))
  | bottomRight : CornerDir "bottom" "right" (.turn (3 / 8))
  | bottomLeft : CornerDir "bottom" "left" (.turn (-3 / 8))
  | leftBottom : CornerDir "left" "bottom" (.turn (-3 / 8))
  | leftTop : CornerDir "left" "top" (.turn (-1 / 8))
  | topLeft : CornerDir "top" "left" (.turn (-1 / 8))
  | topBottom : CornerDir "top" "bottom" .undefined
  | bottomTop : CornerDir "bottom" "top" .undefined
  | leftRight : CornerDir "left" "right" .undefined
  | rightLeft : CornerDir "right" "left" .undefined

/-- The direction of a linear gradient: an angle, a side or a corner. -/
inductive DirForm : List Tok → Option Dir → Prop
  | absent : DirForm [] none
  | angle {a q} : IsAngleTok a q → DirForm [a] (some (.turn q))
  | side {s q} : SideIs s q → DirForm [.ident "to", .ident s] (some (.turn q))
  | corner {s t d} : CornerDir s t d → DirForm [.ident "to", .ident s, .ident t] (some d)

/-- The color spaces; three have a choice of hues, of which the shorter one is the default. -/
inductive SpaceForm : List Tok → Option Space → Prop
  | absent : SpaceForm [] none
  | oklab : SpaceForm [.ident "in", .ident "oklab"] (some .oklab)
  | srgb : SpaceForm [.ident "in", .ident "srgb"] (some .srgb)
  | linearRgb : SpaceForm [.ident "in", .ident "linear-rgb"] (some .linearRgb)
  | oklch : SpaceForm [.ident "in", .ident "oklch"] (some .oklch)
  | oklchShorter : SpaceForm [.ident "in", .ident "oklch", .ident "shorter", .ident "hue"] (some .oklch)
  | oklchLonger : SpaceForm [.ident "in", .ident "oklch", .ident "longer", .ident "hue"] (some .oklchLong)
  | hsl : SpaceForm [.ident "in", .ident "hsl"] (some .hsl)
  | hslShorter : SpaceForm [.ident "in", .ident "hsl", .ident "shorter", .ident "hue"] (some .hsl)
  | hslLonger : SpaceForm [.ident "in", .ident "hsl", .ident "longer", .ident "hue"] (some .hslLong)
  | hsv : SpaceForm [.ident "in", .ident "hsv"] (some .hsv)
  | hsvShorter : SpaceForm [.ident "in", .ident "hsv", .ident "shorter", .ident "hue"] (some .hsv)
  | hsvLonger : SpaceForm [.ident "in", .ident "hsv", .ident "longer", .ident "hue"] (some .hsvLong)

/-- A size of a radial gradient. -/
inductive SizeForm : List Tok → Shape → Prop
  | circle {a x} : IsLengthTok a x → SizeForm [a] (.circle x)
  | ellipse {a b x y} : IsLengthTok a x → IsLengthTok b y → SizeForm [a, b] (.ellipse x y)
  | closestSide : SizeForm [.ident "closest-side"] .closestSide
  | farthestSide : SizeForm [.ident "farthest-side"] .farthestSide
  | closestCorner : SizeForm [.ident "closest-corner"] .closestCorner
  | farthestCorner : SizeForm [.ident "farthest-corner"] .farthestCorner

/-- The shape of a radial gradient: a size, possibly after `circle` or `ellipse` (which makes no difference). -/
inductive ShapeForm : List Tok → Option Shape → Prop
  | absent : ShapeForm [] none
  | size {us s} : SizeForm us s → ShapeForm us (some s)
  | word {w us s} : w ∈ ["circle", "ellipse"] → SizeForm us s → ShapeForm (.ident w :: us) (some s)

/-- A horizontal position. -/
inductive AcrossIs : Tok → Int → Val → Prop
  | length {a x} : IsLengthTok a x → AcrossIs a (-1) x
  | left : AcrossIs (.ident "left") (-1) (.len .px 0)
  | center : AcrossIs (.ident "center") 0 (.len .px 0)
  | right : AcrossIs (.ident "right") 1 (.len .px 0)

/-- A vertical position. -/
inductive AlongIs : Tok → Int → Val → Prop
  | length {a y} : IsLengthTok a y → AlongIs a (-1) y
  | top : AlongIs (.ident "top") (-1) (.len .px 0)
  | center : AlongIs (.ident "center") 0 (.len .px 0)
  | bottom : AlongIs (.ident "bottom") 1 (.len .px 0)

/-- Left or right, and top or bottom. -/
inductive EdgeX : String → Int → Prop
  | left : EdgeX "left" (-1)
  | right : EdgeX "right" 1
@[inherit_doc EdgeX] inductive EdgeY : String → Int → Prop
  | top : EdgeY "top" (-1)
  | bottom : EdgeY "bottom" 1

/-- The position of a gradient: one, two or four values; a part that is left out is in the middle. -/
inductive PositionForm : List Tok → Option Position → Prop
  | absent : PositionForm [] none
  | one {t ax x} : AcrossIs t ax x → PositionForm [.ident "at", t] (some ⟨ax, 0, x, .len .px 0⟩)
  | vertical {w ay} : EdgeY w ay → PositionForm [.ident "at", .ident w] (some ⟨0, ay, .len .px 0, .len .px 0⟩)
  | two {s t ax ay x y} : AcrossIs s ax x → AlongIs t ay y → PositionForm [.ident "at", s, t] (some ⟨ax, ay, x, y⟩)
  | four {v w a b ax ay x y} : EdgeX v ax → IsLengthTok a x → EdgeY w ay → IsLengthTok b y →
      PositionForm [.ident "at", .ident v, a, .ident w, b] (some ⟨ax, ay, x, y⟩)

/-- The start of a conic gradient. -/
inductive FromForm : List Tok → Option ℚ → Prop
  | absent : FromForm [] none
  | angle {a q} : IsAngleTok a q → FromForm [.ident "from", a] (some q)

/-! ## Stops -/

/-- What is between the commas: a color with positions, or a hint. -/
inductive Item (K T : Type) where
  | color (k : K) (ps : List T)
  | hint (h : ℚ)

/-- The text of an item. -/
inductive ItemIs (color : Tok → Option K) (Point : Tok → T → Prop) : List Tok → Item K T → Prop
  | color {t k us ps} : color t = some k → List.Forall₂ Point us ps → ItemIs color Point (t :: us) (.color k ps)
  | hint (q : ℚ) : ItemIs color Point [.percentage q] (.hint (q / 100))

/-- The hint after a stop: the last one before the next color. -/
def leadingHint : List (Item K T) → Option ℚ
  | .hint h :: is => (leadingHint is).or (some h)
  | _ => none

/-- The stops: each color has one at every position of it, or an automatic one; a hint belongs to the stop before it. -/
def stopsOf (auto : T) : List (Item K T) → List (Stop K T)
  | [] => []
  | .color k [] :: is => ⟨k, auto, leadingHint is⟩ :: stopsOf auto is
  | .color k (p :: ps) :: is =>
    ((p :: ps).dropLast.map fun p => (⟨k, p, none⟩ : Stop K T)) ++ ⟨k, (p :: ps).getLast (by simp), leadingHint is⟩ ::
      stopsOf auto is
  | .hint _ :: is => stopsOf auto is

/-- The items begin with a color. -/
def BeginsWithColor (is : List (Item K T)) : Prop := ∃ k ps is', is = .color k ps :: is'

/-- When the first stop is neither at zero nor automatic, there is one more of its color at zero. -/
inductive FromZero (isZero : T → Prop) (zero : T) : List (Stop K T) → List (Stop K T) → Prop
  | there {s ss} : isZero s.point → FromZero isZero zero (s :: ss) (s :: ss)
  | added {s ss} : ¬ isZero s.point → FromZero isZero zero (s :: ss) (⟨s.color, zero, s.hint⟩ :: s :: ss)

/-- The text of the stops of a gradient. -/
def StopsForm (color : Tok → Option K) (Point : Tok → T → Prop) (auto zero : T) (us : List Tok) (ss : List (Stop K T)) : Prop :=
  ∃ is, CommaSep (ItemIs color Point) us is ∧ BeginsWithColor is ∧
    FromZero (fun p => p = zero ∨ p = auto) zero (stopsOf auto is) ss

/-- A length as a position; an angle as a position. -/
def LengthPoint : Tok → Val → Prop := IsLengthTok
@[inherit_doc LengthPoint] def AnglePoint (t : Tok) : Option ℚ → Prop
  | some q => IsAngleTok t q
  | none => False

/-- The text of the parameters: first the given first parameter, if there is one, and then the stops. -/
inductive WithHead (Head : List Tok → H → Prop) (none : H) (Stops : List Tok → α → Prop) : List Tok → H → α → Prop
  | absent {us ss} : Stops us ss → WithHead Head none Stops us none ss
  | present {us h vs ss} : us ≠ [] → Head us h → Stops vs ss → WithHead Head none Stops (us ++ .comma :: vs) h ss

/-- The first parameters of the three gradients. -/
inductive LinearHead : List Tok → Option Dir × Option Space → Prop
  | mk {us vs a s} : DirForm us a → SpaceForm vs s → LinearHead (us ++ vs) (a, s)
@[inherit_doc LinearHead] inductive RadialHead : List Tok → Option Shape × Option Position × Option Space → Prop
  | mk {us vs ws a p s} : ShapeForm us a → PositionForm vs p → SpaceForm ws s → RadialHead (us ++ (vs ++ ws)) (a, p, s)
@[inherit_doc LinearHead] inductive ConicHead : List Tok → Option ℚ × Option Position × Option Space → Prop
  | mk {us vs ws a p s} : FromForm us a → PositionForm vs p → SpaceForm ws s → ConicHead (us ++ (vs ++ ws)) (a, p, s)

/-- The middle. -/
def inTheMiddle : Position := ⟨0, 0, .len .px 0, .len .px 0⟩

/-- The text of a gradient. -/
inductive GradientForm (color : Tok → Option K) : Tok → Gradient K → Prop
  | linear {us a s ss} : WithHead LinearHead (none, none) (StopsForm color LengthPoint .auto (.len .px 0)) us (a, s) ss →
      GradientForm color (.func "linear-gradient" us) (.linear (a.getD (.turn (1 / 2))) s ss)
  | radial {us a p s ss} :
      WithHead RadialHead (none, none, none) (StopsForm color LengthPoint .auto (.len .px 0)) us (a, p, s) ss →
      GradientForm color (.func "radial-gradient" us) (.radial (a.getD .farthestCorner) (p.getD inTheMiddle) s ss)
  | conic {us a p s ss} :
      WithHead ConicHead (none, none, none) (StopsForm color AnglePoint none (some 0)) us (a, p, s) ss →
      GradientForm color (.func "conic-gradient" us) (.conic (a.getD 0) (p.getD inTheMiddle) s ss)

/-- One gradient. -/
inductive GradientAlone (color : Tok → Option K) : List Tok → Gradient K → Prop
  | mk {t g} : GradientForm color t g → GradientAlone color [t] g

end Flair.Spec
