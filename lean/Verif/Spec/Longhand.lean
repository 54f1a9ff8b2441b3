import Verif.Spec.Shorthand2
import Verif.Model.Longhand
/-!
# Specification for the values of longhands
-/
namespace Flair.Spec
open Flair.Calc Flair.Values Flair.Shorthand Flair.Longhand

variable {α K X : Type}

/-- What is expected of colors: they are neither lengths nor numbers, and no comma, `!` or keyword. -/
structure ColorToks (color : Tok → Option K) : Prop where
  length : ∀ t k, color t = some k → calcVal [t] = .err
  number : ∀ t k, color t = some k → calcF32 [t] = .err
  comma : color .comma = none
  bang : color (.delim '!') = none
  ident : ∀ k ∈ ["none", "unset", "inherit", "initial"], color (.ident k) = none

/-- The text of a declaration after the colon: a global keyword or a value in the form `Form`, and whether it is
important. -/
inductive DeclaredAs (Form : List Tok → RV X → Prop) : List Tok → PropertyValue (RV X) → Bool → Prop
  | keyword {k v imp} : (k, v) ∈ globals → DeclaredAs Form (.ident k :: declEnd imp) v imp
  | value {us v imp} : Form us v → DeclaredAs Form (us ++ declEnd imp) (.value v) imp

/-- Two numbers; one stands for both, `none` for zeros. -/
inductive NumberPair : List Tok → ℚ → ℚ → Prop
  | none : NumberPair [.ident "none"] 0 0
  | one {a x} : IsNumberTok a x → NumberPair [a] x x
  | two {a b x y} : IsNumberTok a x → IsNumberTok b y → NumberPair [a, b] x y

/-- Two lengths; one stands for both, `none` for zeros. -/
inductive LengthPair : List Tok → Val → Val → Prop
  | none : LengthPair [.ident "none"] (.len .px 0) (.len .px 0)
  | one {a x} : IsLengthTok a x → LengthPair [a] x x
  | two {a b x y} : IsLengthTok a x → IsLengthTok b y → LengthPair [a, b] x y

/-- A rectangle: `none` or four numbers. -/
inductive RectForm : List Tok → LV K → Prop
  | none : RectForm [.ident "none"] (.rect 0 0 0 0)
  | four {a b c d w x y z} : IsNumberTok a w → IsNumberTok b x → IsNumberTok c y → IsNumberTok d z →
      RectForm [a, b, c, d] (.rect w x y z)

/-- `auto`, a number, or two numbers with a slash. -/
inductive RatioForm : List Tok → LV K → Prop
  | auto : RatioForm [.ident "auto"] (.ratio none)
  | one {a x} : IsNumberTok a x → RatioForm [a] (.ratio (some (x, 1)))
  | two {a b x y} : IsNumberTok a x → IsNumberTok b y → RatioForm [a, .delim '/', b] (.ratio (some (x, y)))

/-- A number, possibly with a box before it. -/
inductive ClipForm (boxes : String → Option String) : List Tok → LV K → Prop
  | margin {a x} : IsNumberTok a x → ClipForm boxes [a] (.clip none x)
  | both {s b a x} : boxes s = some b → IsNumberTok a x → ClipForm boxes [.ident s, a] (.clip (some b) x)

/-- An integer; it is cut off at the limits of 32 bits. -/
inductive IntForm : List Tok → Int → Prop
  | mk (m n : Int) : n = max (-2147483648) (min 2147483647 m) → IntForm [.number m] n

/-- Some lengths. -/
def Lengths : List Tok → List Val → Prop := List.Forall₂ IsLengthTok

/-- An optional color. -/
inductive OptColor (color : Tok → Option K) : List Tok → Option K → Prop
  | absent : OptColor color [] none
  | present {t k} : color t = some k → OptColor color [t] (some k)

/-- One shadow: two to four lengths (offset, blur, spread), with a color before or after them; of two colors the last
one counts. -/
inductive ShadowForm (color : Tok → Option K) : List Tok → Shadow K → Prop
  | two {us vs ws c d x y} : OptColor color us c → Lengths vs [x, y] → OptColor color ws d →
      ShadowForm color (us ++ vs ++ ws) ⟨d.or c, x, y, none, none⟩
  | three {us vs ws c d x y b} : OptColor color us c → Lengths vs [x, y, b] → OptColor color ws d →
      ShadowForm color (us ++ vs ++ ws) ⟨d.or c, x, y, some b, none⟩
  | four {us vs ws c d x y b s} : OptColor color us c → Lengths vs [x, y, b, s] → OptColor color ws d →
      ShadowForm color (us ++ vs ++ ws) ⟨d.or c, x, y, some b, some s⟩

/-- One or more things with commas between them. -/
inductive CommaSep (Form : List Tok → α → Prop) : List Tok → List α → Prop
  | one {us a} : Form us a → CommaSep Form us [a]
  | more {us a vs as} : Form us a → CommaSep Form vs as → CommaSep Form (us ++ .comma :: vs) (a :: as)

/-- `none`, or two numbers with a color before or after them. -/
inductive TextShadowForm (color : Tok → Option K) : List Tok → LV K → Prop
  | none : TextShadowForm color [.ident "none"] .noTextShadow
  | before {t k a b x y} : color t = some k → IsNumberTok a x → IsNumberTok b y →
      TextShadowForm color [t, a, b] (.textShadow (some k) x y)
  | after {a b x y us c} : IsNumberTok a x → IsNumberTok b y → OptColor color us c →
      TextShadowForm color (a :: b :: us) (.textShadow c x y)

/-- `normal`, a factor, or a number of pixels. -/
inductive LineHeightForm : List Tok → LineHeight → Prop
  | normal : LineHeightForm [.ident "normal"] .normal
  | number (q : ℚ) : LineHeightForm [.number q] (.relative q)
  | percent (q : ℚ) : LineHeightForm [.percentage q] (.relative (q / 100))
  | em (q : ℚ) : LineHeightForm [.dimension q "em"] (.relative q)
  | px (q : ℚ) : LineHeightForm [.dimension q "px"] (.px q)

/-! ## Grids -/

/-- The size of a track; only `flexible` ones have the unit `fr`. -/
inductive SizeIs (flexible : Bool) : Tok → Size → Prop
  | auto : SizeIs flexible (.ident "auto") .auto
  | minContent : SizeIs flexible (.ident "min-content") .minContent
  | maxContent : SizeIs flexible (.ident "max-content") .maxContent
  | percent (q : ℚ) : SizeIs flexible (.percentage q) (.percent q)
  | px (q : ℚ) : SizeIs flexible (.dimension q "px") (.px q)
  | vmin (q : ℚ) : SizeIs flexible (.dimension q "vmin") (.vmin q)
  | vmax (q : ℚ) : SizeIs flexible (.dimension q "vmax") (.vmax q)
  | vh (q : ℚ) : SizeIs flexible (.dimension q "vh") (.vh q)
  | vw (q : ℚ) : SizeIs flexible (.dimension q "vw") (.vw q)
  | fr (q : ℚ) : flexible = true → SizeIs flexible (.dimension q "fr") (.fr q)

/-- A track. -/
inductive TrackIs : Tok → Track → Prop
  | size {t s} : SizeIs true t s → TrackIs t (.size s)
  | fitPercent (q : ℚ) : TrackIs (.func "fit-content" [.percentage q]) (.fitPercent q)
  | fitNumber (q : ℚ) : TrackIs (.func "fit-content" [.number q]) (.fitPx q)
  | fitPx (q : ℚ) : TrackIs (.func "fit-content" [.dimension q "px"]) (.fitPx q)
  | minmax {a b x y} : SizeIs false a x → SizeIs true b y → TrackIs (.func "minmax" [a, .comma, b]) (.minmax x y)

/-- One or more tracks. -/
def TracksAre (us : List Tok) (vs : List Track) : Prop := us ≠ [] ∧ List.Forall₂ TrackIs us vs

/-- How often tracks are repeated.  The number is cut off at the limits of 32 bits, and the low sixteen bits of that are
kept. -/
inductive RepetitionIs : Tok → Repetition → Prop
  | count (a n : Int) (m : Nat) : n = max (-2147483648) (min 2147483647 a) → m < 65536 →
      (∃ k : Int, n = m + 65536 * k) → RepetitionIs (.number a) (.count m)
  | autoFill : RepetitionIs (.ident "auto-fill") .autoFill
  | autoFit : RepetitionIs (.ident "auto-fit") .autoFit

/-- A track, or repeated tracks. -/
inductive RepeatedIs : Tok → Repeated → Prop
  | once {t v} : TrackIs t v → RepeatedIs t ⟨.count 1, [v]⟩
  | many {r n us vs} : RepetitionIs r n → TracksAre us vs → RepeatedIs (.func "repeat" (r :: .comma :: us)) ⟨n, vs⟩

/-- The tracks of `grid-auto-rows` and `grid-auto-columns`. -/
inductive TracksForm : List Tok → LV K → Prop
  | none : TracksForm [.ident "none"] (.tracks [])
  | some {us vs} : TracksAre us vs → TracksForm us (.tracks vs)

/-- The tracks of `grid-template-rows` and `grid-template-columns`. -/
inductive RepeatedForm : List Tok → LV K → Prop
  | none : RepeatedForm [.ident "none"] (.repeated [])
  | some {us vs} : us ≠ [] → List.Forall₂ RepeatedIs us vs → RepeatedForm us (.repeated vs)

/-- A line of a grid: an integer of sixteen bits that is not zero. -/
def IsLine (n : Int) : Prop := n ≠ 0 ∧ -32768 ≤ n ∧ n ≤ 32767

/-- The forms of `grid-row` and `grid-column`. -/
inductive PlacementForm : List Tok → Placement → Prop
  | start {s : Int} : IsLine s → PlacementForm [.number s] (.start s)
  | startEnd {s e : Int} : IsLine s → IsLine e → PlacementForm [.number s, .delim '/', .number e] (.startEnd s e)
  | span {s : Int} {n : Nat} : IsLine s → 0 < n → n ≤ 65535 →
      PlacementForm [.number s, .delim '/', .ident "span", .number n] (.startSpan s n)

/-! ## Images -/

/-- What a word does to the tiling. -/
inductive TileWord : Tok → Bool × Bool × ℚ → Bool × Bool × ℚ → Prop
  | x {a b q} : TileWord (.ident "tile_x") (a, b, q) (true, b, q)
  | y {a b q} : TileWord (.ident "tile_y") (a, b, q) (a, true, q)
  | stretch {a b q} (r : ℚ) : TileWord (.number r) (a, b, q) (a, b, r)

/-- What some words do to the tiling, one after another. -/
inductive TileWords : List Tok → Bool × Bool × ℚ → Bool × Bool × ℚ → Prop
  | nil {s} : TileWords [] s s
  | cons {t ts s s' s''} : TileWord t s s' → TileWords ts s' s'' → TileWords (t :: ts) s s''

/-- How a part of a sliced image fills its place. -/
inductive SliceIs : Tok → Slice → Prop
  | auto : SliceIs (.ident "auto") .stretch
  | stretch : SliceIs (.ident "stretch") .stretch
  | tile {t q} : IsNumberTok t q → SliceIs (.func "tile" [t]) (.tile q)

/-- Up to two modes: center and sides; what is left out is stretched. -/
inductive SlicesAre : List Tok → Slice → Slice → Prop
  | none : SlicesAre [] .stretch .stretch
  | one {t s} : SliceIs t s → SlicesAre [t] s .stretch
  | two {t u s r} : SliceIs t s → SliceIs u r → SlicesAre [t, u] s r

/-- An optional number; one if it is left out. -/
inductive CornerIs : List Tok → ℚ → Prop
  | none : CornerIs [] 1
  | some {t q} : IsNumberTok t q → CornerIs [t] q

/-- The forms of the image mode.  Without a mode between them, a number after the borders is a border. -/
inductive ImageModeForm : List Tok → ImageMode → Prop
  | auto : ImageModeForm [.ident "auto"] .auto
  | stretch : ImageModeForm [.ident "stretch"] .stretch
  | tiled {ts x y q} : TileWords ts (false, false, 1) (x, y, q) → ImageModeForm [.func "tiled" ts] (.tiled x y q)
  | sliced {bs ms cs vs a b q t r o l} : List.Forall₂ IsNumberTok bs vs → vs.length ≤ 4 → cssTop vs = some t →
      cssRight vs = some r → cssBottom vs = some o → cssLeft vs = some l → SlicesAre ms a b → CornerIs cs q →
      (ms = [] → cs ≠ [] → vs.length = 4) → ImageModeForm [.func "sliced" (bs ++ ms ++ cs)] (.sliced t r o l a b q)

end Flair.Spec
