import Verif.Model.Color
/-!
# Specification of colors

The notations of CSS Color Level 4, and what the colors of bevy stand for.  ColorValue from the CSS specification and
from the documentation of `bevy_color`; of the model only the tokens and the type `Color`
are used.
-/
namespace Flair.Spec
open Flair.Shorthand Flair.Colors

/-- The color spaces -/
inductive CssSpace where
  | srgb | srgbLinear | hsl | hwb | lab | lch | oklab | oklch | xyz
  /-- the other ones of `color()`, and `currentcolor` -/
  | unsupported
deriving DecidableEq

/-- A color, with the components in the units of CSS: red, green, blue, saturation, lightness of `hsl()`, ... as parts of
one, hues in degrees, the lightness of `lab()` and `lch()` from 0 to 100; `none`: the component is missing -/
structure ColorValue where
  space : CssSpace
  x : Option ℚ
  y : Option ℚ
  z : Option ℚ
  alpha : Option ℚ

/-- What is on the screen: a missing component counts as zero. -/
structure Shown where
  space : CssSpace
  x : ℚ
  y : ℚ
  z : ℚ
  alpha : ℚ

/-- A missing component counts as zero (CSS Color 4, 4.4), also the alpha. -/
def ColorValue.shown (w : ColorValue) : Shown := ⟨w.space, w.x.getD 0, w.y.getD 0, w.z.getD 0, w.alpha.getD 0⟩

/-- What a color of bevy stands for.  `Laba` and `Lcha` have the components of CIELAB divided by 100 (white is the
lightness 1). -/
def standsFor : Color → Shown
  | .srgba r g b a => ⟨.srgb, r, g, b, a⟩
  | .linear r g b a => ⟨.srgbLinear, r, g, b, a⟩
  | .hsla h s l a => ⟨.hsl, h, s, l, a⟩
  | .hwba h w b a => ⟨.hwb, h, w, b, a⟩
  | .laba l a b al => ⟨.lab, 100 * l, 100 * a, 100 * b, al⟩
  | .lcha l c h al => ⟨.lch, 100 * l, 100 * c, h, al⟩
  | .oklaba l a b al => ⟨.oklab, l, a, b, al⟩
  | .oklcha l c h al => ⟨.oklch, l, c, h, al⟩
  | .xyza x y z a => ⟨.xyz, x, y, z, a⟩

/-! ## Components -/

/-- A number, or a percentage of the reference -/
inductive NumOrPct (ref : ℚ) : Tok → ℚ → Prop
  | number (q : ℚ) : NumOrPct ref (.number q) q
  | percentage (p : ℚ) : NumOrPct ref (.percentage p) (p / 100 * ref)

/-- The part of one nearest to a number -/
inductive Part : ℚ → ℚ → Prop
  | below {q} : q < 0 → Part q 0
  | within {q} : 0 ≤ q → q ≤ 1 → Part q q
  | above {q} : 1 < q → Part q 1

/-- A percentage, as a part of one -/
inductive Percent : Tok → ℚ → Prop
  | mk {p q} : Part (p / 100) q → Percent (.percentage p) q

/-- The component of `rgb()` as a number, from 0 to 255 -/
inductive RgbNumber : Tok → ℚ → Prop
  | mk {n q} : Part (n / 255) q → RgbNumber (.number n) q

/-- The component of the present form of `rgb()` -/
inductive RgbComponent : Tok → ℚ → Prop
  | number {t q} : RgbNumber t q → RgbComponent t q
  | percentage {t q} : Percent t q → RgbComponent t q

/-- An angle in degrees -/
inductive Degrees : Tok → ℚ → Prop
  | number (q : ℚ) : Degrees (.number q) q
  | deg (q : ℚ) : Degrees (.dimension q "deg") q
  | grad (q : ℚ) : Degrees (.dimension q "grad") (q * 9 / 10)
  | turn (q : ℚ) : Degrees (.dimension q "turn") (q * 360)

/-- A hue: the degrees without full circles -/
inductive Hue : Tok → ℚ → Prop
  | mk {t q h} (n : ℤ) : Degrees t q → q = h + 360 * n → 0 ≤ h → h < 360 → Hue t h

/-- A component, or `none` -/
inductive OrMissing (R : Tok → ℚ → Prop) : Tok → Option ℚ → Prop
  | missing : OrMissing R (.ident "none") none
  | given {t q} : R t q → OrMissing R t (some q)

/-- The value of an alpha -/
inductive AlphaValue : Tok → ℚ → Prop
  | mk {t q a} : NumOrPct 1 t q → Part q a → AlphaValue t a

/-- The alpha after a slash; without it the color is opaque. -/
inductive SlashAlpha : List Tok → Option ℚ → Prop
  | absent : SlashAlpha [] (some 1)
  | present {t a} : OrMissing AlphaValue t a → SlashAlpha [.delim '/', t] a

/-- The alpha after a comma, in the forms with commas -/
inductive CommaAlpha : List Tok → ℚ → Prop
  | absent : CommaAlpha [] 1
  | present {t a} : AlphaValue t a → CommaAlpha [.comma, t] a

/-- Three components without commas, and an alpha -/
inductive Components (A B C : Tok → ℚ → Prop) : List Tok → Option ℚ → Option ℚ → Option ℚ → Option ℚ → Prop
  | mk {a b c us x y z al} : OrMissing A a x → OrMissing B b y → OrMissing C c z → SlashAlpha us al →
      Components A B C (a :: b :: c :: us) x y z al

/-- Three components with commas, and an alpha -/
inductive CommaComponents (A B C : Tok → ℚ → Prop) : List Tok → ℚ → ℚ → ℚ → ℚ → Prop
  | mk {a b c us x y z al} : A a x → B b y → C c z → CommaAlpha us al →
      CommaComponents A B C (a :: .comma :: b :: .comma :: c :: us) x y z al

/-- The names of the color spaces of `color()` -/
inductive SpaceNamed : String → CssSpace → Prop
  | srgb : SpaceNamed "srgb" .srgb
  | srgbLinear : SpaceNamed "srgb-linear" .srgbLinear
  | xyz : SpaceNamed "xyz" .xyz
  | xyzD65 : SpaceNamed "xyz-d65" .xyz
  | displayP3 : SpaceNamed "display-p3" .unsupported
  | a98 : SpaceNamed "a98-rgb" .unsupported
  | prophoto : SpaceNamed "prophoto-rgb" .unsupported
  | rec2020 : SpaceNamed "rec2020" .unsupported
  | xyzD50 : SpaceNamed "xyz-d50" .unsupported

/-- The functions -/
inductive FunctionText : String → List Tok → ColorValue → Prop
  | rgb {name args x y z al} : name = "rgb" ∨ name = "rgba" →
      Components RgbComponent RgbComponent RgbComponent args x y z al → FunctionText name args ⟨.srgb, x, y, z, al⟩
  | rgbNumbers {name args x y z al} : name = "rgb" ∨ name = "rgba" →
      CommaComponents RgbNumber RgbNumber RgbNumber args x y z al →
      FunctionText name args ⟨.srgb, some x, some y, some z, some al⟩
  | rgbPercentages {name args x y z al} : name = "rgb" ∨ name = "rgba" →
      CommaComponents Percent Percent Percent args x y z al →
      FunctionText name args ⟨.srgb, some x, some y, some z, some al⟩
  | hsl {name args x y z al} : name = "hsl" ∨ name = "hsla" → Components Hue Percent Percent args x y z al →
      FunctionText name args ⟨.hsl, x, y, z, al⟩
  | hslCommas {name args x y z al} : name = "hsl" ∨ name = "hsla" → CommaComponents Hue Percent Percent args x y z al →
      FunctionText name args ⟨.hsl, some x, some y, some z, some al⟩
  | hwb {args x y z al} : Components Hue Percent Percent args x y z al → FunctionText "hwb" args ⟨.hwb, x, y, z, al⟩
  | lab {args x y z al} : Components (NumOrPct 100) (NumOrPct 125) (NumOrPct 125) args x y z al →
      FunctionText "lab" args ⟨.lab, x, y, z, al⟩
  | lch {args x y z al} : Components (NumOrPct 100) (NumOrPct 150) Hue args x y z al →
      FunctionText "lch" args ⟨.lch, x, y, z, al⟩
  | oklab {args x y z al} : Components (NumOrPct 1) (NumOrPct (2 / 5)) (NumOrPct (2 / 5)) args x y z al →
      FunctionText "oklab" args ⟨.oklab, x, y, z, al⟩
  | oklch {args x y z al} : Components (NumOrPct 1) (NumOrPct (2 / 5)) Hue args x y z al →
      FunctionText "oklch" args ⟨.oklch, x, y, z, al⟩
  | color {s sp args x y z al} : SpaceNamed s sp → Components (NumOrPct 1) (NumOrPct 1) (NumOrPct 1) args x y z al →
      FunctionText "color" (.ident s :: args) ⟨sp, x, y, z, al⟩

/-! ## Hexadecimal notation -/

/-- The value of a digit -/
inductive HexIs : Char → ℕ → Prop
  | mk {c n} : (c, n) ∈ "0123456789abcdef".toList.zip (List.range 16) → HexIs c n
  | upper {c n} : (c, n) ∈ "ABCDEF".toList.zip [10, 11, 12, 13, 14, 15] → HexIs c n

/-- Two digits, as a part of one -/
inductive HexPair : Char → Char → ℚ → Prop
  | mk {c d m n} : HexIs c m → HexIs d n → HexPair c d ((16 * m + n : ℕ) / 255)

/-- The text after the `#`; a digit that stands alone counts twice. -/
inductive HexText : List Char → ColorValue → Prop
  | six {a b c d e f x y z} : HexPair a b x → HexPair c d y → HexPair e f z →
      HexText [a, b, c, d, e, f] ⟨.srgb, some x, some y, some z, some 1⟩
  | eight {a b c d e f g h x y z w} : HexPair a b x → HexPair c d y → HexPair e f z → HexPair g h w →
      HexText [a, b, c, d, e, f, g, h] ⟨.srgb, some x, some y, some z, some w⟩
  | three {a b c x y z} : HexPair a a x → HexPair b b y → HexPair c c z →
      HexText [a, b, c] ⟨.srgb, some x, some y, some z, some 1⟩
  | four {a b c d x y z w} : HexPair a a x → HexPair b b y → HexPair c c z → HexPair d d w →
      HexText [a, b, c, d] ⟨.srgb, some x, some y, some z, some w⟩

/-! ## Colors -/

/-- The named colors of CSS (CSS Color 4, section 6.1), in hexadecimal: two digits each for red, green and blue -/
def cssColors : List (String × ℕ) :=
  [("aliceblue", 0xf0f8ff), ("antiquewhite", 0xfaebd7), ("aqua", 0x00ffff), ("aquamarine", 0x7fffd4),
    ("azure", 0xf0ffff), ("beige", 0xf5f5dc), ("bisque", 0xffe4c4), ("black", 0x000000),
    ("blanchedalmond", 0xffebcd), ("blue", 0x0000ff), ("blueviolet", 0x8a2be2), ("brown", 0xa52a2a),
    ("burlywood", 0xdeb887), ("cadetblue", 0x5f9ea0), ("chartreuse", 0x7fff00), ("chocolate", 0xd2691e),
    ("coral", 0xff7f50), ("cornflowerblue", 0x6495ed), ("cornsilk", 0xfff8dc), ("crimson", 0xdc143c),
    ("cyan", 0x00ffff), ("darkblue", 0x00008b), ("darkcyan", 0x008b8b), ("darkgoldenrod", 0xb8860b),
    ("darkgray", 0xa9a9a9), ("darkgreen", 0x006400), ("darkgrey", 0xa9a9a9), ("darkkhaki", 0xbdb76b),
    ("darkmagenta", 0x8b008b), ("darkolivegreen", 0x556b2f), ("darkorange", 0xff8c00), ("darkorchid", 0x9932cc),
    ("darkred", 0x8b0000), ("darksalmon", 0xe9967a), ("darkseagreen", 0x8fbc8f), ("darkslateblue", 0x483d8b),
    ("darkslategray", 0x2f4f4f), ("darkslategrey", 0x2f4f4f), ("darkturquoise", 0x00ced1), ("darkviolet", 0x9400d3),
    ("deeppink", 0xff1493), ("deepskyblue", 0x00bfff), ("dimgray", 0x696969), ("dimgrey", 0x696969),
    ("dodgerblue", 0x1e90ff), ("firebrick", 0xb22222), ("floralwhite", 0xfffaf0), ("forestgreen", 0x228b22),
    ("fuchsia", 0xff00ff), ("gainsboro", 0xdcdcdc), ("ghostwhite", 0xf8f8ff), ("gold", 0xffd700),
    ("goldenrod", 0xdaa520), ("gray", 0x808080), ("green", 0x008000), ("greenyellow", 0xadff2f), ("grey", 0x808080),
    ("honeydew", 0xf0fff0), ("hotpink", 0xff69b4), ("indianred", 0xcd5c5c), ("indigo", 0x4b0082),
    ("ivory", 0xfffff0), ("khaki", 0xf0e68c), ("lavender", 0xe6e6fa), ("lavenderblush", 0xfff0f5),
    ("lawngreen", 0x7cfc00), ("lemonchiffon", 0xfffacd), ("lightblue", 0xadd8e6), ("lightcoral", 0xf08080),
    ("lightcyan", 0xe0ffff), ("lightgoldenrodyellow", 0xfafad2), ("lightgray", 0xd3d3d3), ("lightgreen", 0x90ee90),
    ("lightgrey", 0xd3d3d3), ("lightpink", 0xffb6c1), ("lightsalmon", 0xffa07a), ("lightseagreen", 0x20b2aa),
    ("lightskyblue", 0x87cefa), ("lightslategray", 0x778899), ("lightslategrey", 0x778899),
    ("lightsteelblue", 0xb0c4de), ("lightyellow", 0xffffe0), ("lime", 0x00ff00), ("limegreen", 0x32cd32),
    ("linen", 0xfaf0e6), ("magenta", 0xff00ff), ("maroon", 0x800000), ("mediumaquamarine", 0x66cdaa),
    ("mediumblue", 0x0000cd), ("mediumorchid", 0xba55d3), ("mediumpurple", 0x9370db), ("mediumseagreen", 0x3cb371),
    ("mediumslateblue", 0x7b68ee), ("mediumspringgreen", 0x00fa9a), ("mediumturquoise", 0x48d1cc),
    ("mediumvioletred", 0xc71585), ("midnightblue", 0x191970), ("mintcream", 0xf5fffa), ("mistyrose", 0xffe4e1),
    ("moccasin", 0xffe4b5), ("navajowhite", 0xffdead), ("navy", 0x000080), ("oldlace", 0xfdf5e6),
    ("olive", 0x808000), ("olivedrab", 0x6b8e23), ("orange", 0xffa500), ("orangered", 0xff4500),
    ("orchid", 0xda70d6), ("palegoldenrod", 0xeee8aa), ("palegreen", 0x98fb98), ("paleturquoise", 0xafeeee),
    ("palevioletred", 0xdb7093), ("papayawhip", 0xffefd5), ("peachpuff", 0xffdab9), ("peru", 0xcd853f),
    ("pink", 0xffc0cb), ("plum", 0xdda0dd), ("powderblue", 0xb0e0e6), ("purple", 0x800080),
    ("rebeccapurple", 0x663399), ("red", 0xff0000), ("rosybrown", 0xbc8f8f), ("royalblue", 0x4169e1),
    ("saddlebrown", 0x8b4513), ("salmon", 0xfa8072), ("sandybrown", 0xf4a460), ("seagreen", 0x2e8b57),
    ("seashell", 0xfff5ee), ("sienna", 0xa0522d), ("silver", 0xc0c0c0), ("skyblue", 0x87ceeb),
    ("slateblue", 0x6a5acd), ("slategray", 0x708090), ("slategrey", 0x708090), ("snow", 0xfffafa),
    ("springgreen", 0x00ff7f), ("steelblue", 0x4682b4), ("tan", 0xd2b48c), ("teal", 0x008080), ("thistle", 0xd8bfd8),
    ("tomato", 0xff6347), ("turquoise", 0x40e0d0), ("violet", 0xee82ee), ("wheat", 0xf5deb3), ("white", 0xffffff),
    ("whitesmoke", 0xf5f5f5), ("yellow", 0xffff00), ("yellowgreen", 0x9acd32)]

/-- The text of a color; `hash`: the text of the hash tokens. -/
inductive ColorText (hash : Nat → Option String) : Tok → ColorValue → Prop
  | transparent : ColorText hash (.ident "transparent") ⟨.srgb, some 0, some 0, some 0, some 0⟩
  | current : ColorText hash (.ident "currentcolor") ⟨.unsupported, none, none, none, none⟩
  | named {s n} : (s, n) ∈ cssColors →
      ColorText hash (.ident s)
        ⟨.srgb, some ((n / 65536 : ℕ) / 255), some ((n / 256 % 256 : ℕ) / 255), some ((n % 256 : ℕ) / 255), some 1⟩
  | hex {n s w} : hash n = some s → HexText s.toList w → ColorText hash (.other n) w
  | function {name args w} : FunctionText name args w → ColorText hash (.func name args) w

/-- Written with `rgb()`: the components are kept in 255 steps. -/
def InRgb : Tok → Prop
  | .func name _ => name = "rgb" ∨ name = "rgba"
  | _ => False

/-- The same component, up to half a step if `steps` -/
def SameComponent (steps : Prop) (q r : ℚ) : Prop := q = r ∨ steps ∧ |q - r| ≤ 1 / 510

/-- The same color, up to half a step in each component if `steps` -/
structure ShownAs (steps : Prop) (s t : Shown) : Prop where
  space : s.space = t.space
  x : SameComponent steps s.x t.x
  y : SameComponent steps s.y t.y
  z : SameComponent steps s.z t.z
  alpha : s.alpha = t.alpha

end Flair.Spec
