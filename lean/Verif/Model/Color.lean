import Verif.Model.Shorthand
/-!
# Model of `crates/bevy_flair_css_parser/src/reflect/color.rs`

On the tokens of `Model/Shorthand` (identifiers, units and function names in lower case).  `parse_color` hands the text
to the crate `cssparser_color` (version 0.3), which is modelled here after its source from memory: it is not part of
the repository.  What color.rs does with the outcome (`FromParsedColor`) is modelled function by function.  `f32`
numbers are rationals.  Angles in radians are left out (a radian is no rational number of degrees).
-/
namespace Flair.Colors
open Flair.Calc Flair.Shorthand

/-- `bevy_color::Color`: the color spaces, with the components and the alpha of each -/
inductive Color where
  | srgba (r g b a : ℚ)
  | linear (r g b a : ℚ)
  | hsla (h s l a : ℚ)
  | hwba (h w b a : ℚ)
  | laba (l a b alpha : ℚ)
  | lcha (l c h alpha : ℚ)
  | oklaba (l a b alpha : ℚ)
  | oklcha (l c h alpha : ℚ)
  | xyza (x y z a : ℚ)
deriving DecidableEq

/-- `cssparser::color::PredefinedColorSpace` -/
inductive PSpace where
  | srgb | srgbLinear | displayP3 | a98 | prophoto | rec2020 | xyzD50 | xyzD65
deriving DecidableEq

/-! ## `FromParsedColor` (color.rs:46-166)

`none` is `ParsedColor::Error`. -/

/-- `unwrap_component!` (color.rs:27-31) -/
def comp (o : Option ℚ) : ℚ := o.getD 0

/-- `alpha!` (color.rs:33-37) -/
def alphaOr (o : Option ℚ) : ℚ := o.getD 1

/-- `remap!` (color.rs:39-44): `inverse_lerp(0, input, v) = v / input`, `lerp(0, output, t) = output * t` -/
def remap (input output v : ℚ) : ℚ := output * (v / input)

/-- `from_current_color` (color.rs:47-52) -/
def fromCurrent : Option Color := none

/-- `from_rgba` (color.rs:54-56); `srgb_u8` divides by 255 -/
def fromRgba (r g b : ℚ) (a : ℚ) : Option Color := some (.srgba (r / 255) (g / 255) (b / 255) a)

/-- `from_hsl` (color.rs:58-68) -/
def fromHsl (h s l a : Option ℚ) : Option Color := some (.hsla (comp h) (comp s) (comp l) (alphaOr a))

/-- `from_hwb` (color.rs:70-80) -/
def fromHwb (h w b a : Option ℚ) : Option Color := some (.hwba (comp h) (comp w) (comp b) (alphaOr a))

/-- `from_lab` (color.rs:82-92) -/
def fromLab (l a b al : Option ℚ) : Option Color :=
  some (.laba (remap 100 (3 / 2) (comp l)) (remap 125 (3 / 2) (comp a)) (remap 125 (3 / 2) (comp b)) (alphaOr al))

/-- `from_lch` (color.rs:94-104) -/
def fromLch (l c h al : Option ℚ) : Option Color :=
  some (.lcha (remap 100 (3 / 2) (comp l)) (remap 150 (3 / 2) (comp c)) (comp h) (alphaOr al))

/-- `from_oklab` (color.rs:106-116) -/
def fromOklab (l a b al : Option ℚ) : Option Color := some (.oklaba (comp l) (comp a) (comp b) (alphaOr al))

/-- `from_oklch` (color.rs:118-128) -/
def fromOklch (l c h al : Option ℚ) : Option Color := some (.oklcha (comp l) (comp c) (comp h) (alphaOr al))

/-- `from_color_function` (color.rs:130-165) -/
def fromSpace (s : PSpace) (x y z al : Option ℚ) : Option Color :=
  match s with
  | .srgb => some (.srgba (comp x) (comp y) (comp z) (alphaOr al))
  | .srgbLinear => some (.linear (comp x) (comp y) (comp z) (alphaOr al))
  | .xyzD65 => some (.xyza (comp x) (comp y) (comp z) (alphaOr al))
  | _ => none

/-! ## The crate `cssparser_color` -/

/-- `NumberOrPercentage`; a percentage is kept as its `unit_value` -/
inductive NumPct where
  | number (q : ℚ)
  | percentage (u : ℚ)

/-- `NumberOrPercentage::value` -/
def NumPct.value (basis : ℚ) : NumPct → ℚ
  | .number q => q
  | .percentage u => u * basis

/-- `parse_number_or_percentage`, on the token it reads -/
def numPctTok : Tok → Option NumPct
  | .number q => some (.number q)
  | .percentage q => some (.percentage (q / 100))
  | _ => none

/-- `expect_percentage`, on the token it reads -/
def pctTok : Tok → Option ℚ
  | .percentage q => some (q / 100)
  | _ => none

/-- `expect_number`, on the token it reads -/
def numTok : Tok → Option ℚ
  | .number q => some q
  | _ => none

/-- `parse_angle_or_number` in degrees, on the token it reads -/
def hueTok : Tok → Option ℚ
  | .number q => some q
  | .dimension q u => if u = "deg" then some q else if u = "grad" then some (q * 360 / 400)
      else if u = "turn" then some (q * 360) else none
  | _ => none

/-- `normalize_hue` -/
def normHue (h : ℚ) : ℚ := h - 360 * ⌊h / 360⌋

/-- `clamp(0.0, 1.0)` -/
def unit (q : ℚ) : ℚ := max 0 (min 1 q)

/-- `f32::round`: half away from zero -/
def roundAway (q : ℚ) : ℚ := if 0 ≤ q then ⌊q + 1 / 2⌋ else -⌊-q + 1 / 2⌋

/-- `clamp_floor_256_f32` -/
def byte (q : ℚ) : ℚ := max 0 (min 255 (roundAway q))

/-- `clamp_unit_f32` -/
def unitByte (u : ℚ) : ℚ := byte (u * 255)

/-- `parse_none_or` -/
def noneOrP {α : Type} (p : P α) : P (Option α) := do
  match ← tryP (identIs "none") with
  | some _ => pure none
  | none => do let v ← p; pure (some v)

/-- The value of an alpha: `parse_number_or_percentage` and `clamp(0.0, 1.0)` -/
def alphaValue : P ℚ := do
  let v ← tok1 numPctTok
  pure (unit (v.value 1))

/-- `parse_legacy_alpha` -/
def legacyAlpha : P ℚ
  | [] => .ok (1, [])
  | ts => (do comma; alphaValue : P ℚ) ts

/-- `parse_modern_alpha` -/
def modernAlpha : P (Option ℚ)
  | [] => .ok (some 1, [])
  | ts => (do delimIs '/'; noneOrP alphaValue : P (Option ℚ)) ts

/-- The component of an `rgb()` as a byte -/
def NumPct.byte : NumPct → ℚ
  | .number q => Colors.byte q
  | .percentage u => unitByte u

/-- `parse_rgb`.  An error of `from_…` is the result of `Ok(ParsedColor::Error(…))`, hence the `Option`. -/
def rgbP : P (Option Color) := do
  let red ← noneOrP (tok1 numPctTok)
  let legacy ← (match red with
    | some _ => tryP comma
    | none => pure none)
  match red, legacy with
  | some (.number q), some _ => do
    let g ← tok1 numTok
    comma
    let b ← tok1 numTok
    let a ← legacyAlpha
    pure (fromRgba (byte q) (byte g) (byte b) a)
  | some (.percentage u), some _ => do
    let g ← tok1 pctTok
    comma
    let b ← tok1 pctTok
    let a ← legacyAlpha
    pure (fromRgba (unitByte u) (unitByte g) (unitByte b) a)
  | r, _ => do
    let g ← noneOrP (tok1 numPctTok)
    let b ← noneOrP (tok1 numPctTok)
    let a ← modernAlpha
    pure (fromRgba ((r.map NumPct.byte).getD 0) ((g.map NumPct.byte).getD 0) ((b.map NumPct.byte).getD 0) (a.getD 0))

/-- `parse_hsl` -/
def hslP : P (Option Color) := do
  let hue ← noneOrP (tok1 hueTok)
  let legacy ← (match hue with
    | some _ => tryP comma
    | none => pure none)
  match legacy with
  | some _ => do
    let s ← tok1 pctTok
    comma
    let l ← tok1 pctTok
    let a ← legacyAlpha
    pure (fromHsl (hue.map normHue) (some (unit s)) (some (unit l)) (some a))
  | none => do
    let s ← noneOrP (tok1 pctTok)
    let l ← noneOrP (tok1 pctTok)
    let a ← modernAlpha
    pure (fromHsl (hue.map normHue) (s.map unit) (l.map unit) a)

/-- `parse_components` -/
def componentsP {α β γ : Type} (f : P α) (g : P β) (h : P γ) :
    P (Option α × Option β × Option γ × Option ℚ) := do
  let x ← noneOrP f
  let y ← noneOrP g
  let z ← noneOrP h
  let a ← modernAlpha
  pure (x, y, z, a)

/-- `parse_hwb` -/
def hwbP : P (Option Color) := do
  let (h, w, b, a) ← componentsP (tok1 hueTok) (tok1 pctTok) (tok1 pctTok)
  pure (fromHwb (h.map normHue) (w.map unit) (b.map unit) a)

/-- `parse_lab_like` -/
def labLike (lRange abRange : ℚ) (make : Option ℚ → Option ℚ → Option ℚ → Option ℚ → Option Color) :
    P (Option Color) := do
  let (l, a, b, al) ← componentsP (tok1 numPctTok) (tok1 numPctTok) (tok1 numPctTok)
  pure (make (l.map (·.value lRange)) (a.map (·.value abRange)) (b.map (·.value abRange)) al)

/-- `parse_lch_like` -/
def lchLike (lRange cRange : ℚ) (make : Option ℚ → Option ℚ → Option ℚ → Option ℚ → Option Color) :
    P (Option Color) := do
  let (l, c, h, al) ← componentsP (tok1 numPctTok) (tok1 numPctTok) (tok1 hueTok)
  pure (make (l.map (·.value lRange)) (c.map (·.value cRange)) (h.map normHue) al)

/-- `PredefinedColorSpace::parse`: the names -/
def spaces : List (String × PSpace) :=
  [("srgb", .srgb), ("srgb-linear", .srgbLinear), ("display-p3", .displayP3), ("a98-rgb", .a98),
    ("prophoto-rgb", .prophoto), ("rec2020", .rec2020), ("xyz-d50", .xyzD50), ("xyz", .xyzD65), ("xyz-d65", .xyzD65)]

/-- `PredefinedColorSpace::parse`, on the token it reads -/
def spaceTok : Tok → Option PSpace
  | .ident s => spaces.lookup s
  | _ => none

/-- `parse_color_with_color_space` -/
def colorFunctionP : P (Option Color) := do
  let s ← tok1 spaceTok
  let (x, y, z, al) ← componentsP (tok1 numPctTok) (tok1 numPctTok) (tok1 numPctTok)
  pure (fromSpace s (x.map (·.value 1)) (y.map (·.value 1)) (z.map (·.value 1)) al)

/-- `parse_color_function`, by the name of the function -/
def functionP (name : String) : P (Option Color) :=
  if name = "rgb" then rgbP
  else if name = "rgba" then rgbP
  else if name = "hsl" then hslP
  else if name = "hsla" then hslP
  else if name = "hwb" then hwbP
  else if name = "lab" then labLike 100 125 fromLab
  else if name = "lch" then lchLike 100 150 fromLch
  else if name = "oklab" then labLike 1 (2 / 5) fromOklab
  else if name = "oklch" then lchLike 1 (2 / 5) fromOklch
  else if name = "color" then colorFunctionP
  else fail

/-- The value of a hexadecimal digit -/
def hexDigit (c : Char) : Option ℚ :=
  if '0' ≤ c ∧ c ≤ '9' then some ((c.toNat - '0'.toNat : Nat) : ℚ)
  else if 'a' ≤ c ∧ c ≤ 'f' then some ((c.toNat - 'a'.toNat + 10 : Nat) : ℚ)
  else if 'A' ≤ c ∧ c ≤ 'F' then some ((c.toNat - 'A'.toNat + 10 : Nat) : ℚ)
  else none

/-- `parse_hash_color`, on the digits: of one digit a byte is made by writing it twice -/
def hashDigits : List ℚ → Option Color
  | [r, r', g, g', b, b', a, a'] => fromRgba (r * 16 + r') (g * 16 + g') (b * 16 + b') ((a * 16 + a') / 255)
  | [r, r', g, g', b, b'] => fromRgba (r * 16 + r') (g * 16 + g') (b * 16 + b') 1
  | [r, g, b, a] => fromRgba (r * 17) (g * 17) (b * 17) (a * 17 / 255)
  | [r, g, b] => fromRgba (r * 17) (g * 17) (b * 17) 1
  | _ => none

/-- `parse_hash_color` -/
def hashColor (s : String) : Option Color := (s.toList.mapM hexDigit).bind hashDigits

/-- `parse_named_color`: the names of CSS -/
def namedColors : List (String × ℚ × ℚ × ℚ) :=
  [("aliceblue", 240, 248, 255), ("antiquewhite", 250, 235, 215), ("aqua", 0, 255, 255),
    ("aquamarine", 127, 255, 212), ("azure", 240, 255, 255), ("beige", 245, 245, 220), ("bisque", 255, 228, 196),
    ("black", 0, 0, 0), ("blanchedalmond", 255, 235, 205), ("blue", 0, 0, 255), ("blueviolet", 138, 43, 226),
    ("brown", 165, 42, 42), ("burlywood", 222, 184, 135), ("cadetblue", 95, 158, 160), ("chartreuse", 127, 255, 0),
    ("chocolate", 210, 105, 30), ("coral", 255, 127, 80), ("cornflowerblue", 100, 149, 237),
    ("cornsilk", 255, 248, 220), ("crimson", 220, 20, 60), ("cyan", 0, 255, 255), ("darkblue", 0, 0, 139),
    ("darkcyan", 0, 139, 139), ("darkgoldenrod", 184, 134, 11), ("darkgray", 169, 169, 169),
    ("darkgreen", 0, 100, 0), ("darkgrey", 169, 169, 169), ("darkkhaki", 189, 183, 107),
    ("darkmagenta", 139, 0, 139), ("darkolivegreen", 85, 107, 47), ("darkorange", 255, 140, 0),
    ("darkorchid", 153, 50, 204), ("darkred", 139, 0, 0), ("darksalmon", 233, 150, 122),
    ("darkseagreen", 143, 188, 143), ("darkslateblue", 72, 61, 139), ("darkslategray", 47, 79, 79),
    ("darkslategrey", 47, 79, 79), ("darkturquoise", 0, 206, 209), ("darkviolet", 148, 0, 211),
    ("deeppink", 255, 20, 147), ("deepskyblue", 0, 191, 255), ("dimgray", 105, 105, 105),
    ("dimgrey", 105, 105, 105), ("dodgerblue", 30, 144, 255), ("firebrick", 178, 34, 34),
    ("floralwhite", 255, 250, 240), ("forestgreen", 34, 139, 34), ("fuchsia", 255, 0, 255),
    ("gainsboro", 220, 220, 220), ("ghostwhite", 248, 248, 255), ("gold", 255, 215, 0),
    ("goldenrod", 218, 165, 32), ("gray", 128, 128, 128), ("green", 0, 128, 0), ("greenyellow", 173, 255, 47),
    ("grey", 128, 128, 128), ("honeydew", 240, 255, 240), ("hotpink", 255, 105, 180), ("indianred", 205, 92, 92),
    ("indigo", 75, 0, 130), ("ivory", 255, 255, 240), ("khaki", 240, 230, 140), ("lavender", 230, 230, 250),
    ("lavenderblush", 255, 240, 245), ("lawngreen", 124, 252, 0), ("lemonchiffon", 255, 250, 205),
    ("lightblue", 173, 216, 230), ("lightcoral", 240, 128, 128), ("lightcyan", 224, 255, 255),
    ("lightgoldenrodyellow", 250, 250, 210), ("lightgray", 211, 211, 211), ("lightgreen", 144, 238, 144),
    ("lightgrey", 211, 211, 211), ("lightpink", 255, 182, 193), ("lightsalmon", 255, 160, 122),
    ("lightseagreen", 32, 178, 170), ("lightskyblue", 135, 206, 250), ("lightslategray", 119, 136, 153),
    ("lightslategrey", 119, 136, 153), ("lightsteelblue", 176, 196, 222), ("lightyellow", 255, 255, 224),
    ("lime", 0, 255, 0), ("limegreen", 50, 205, 50), ("linen", 250, 240, 230), ("magenta", 255, 0, 255),
    ("maroon", 128, 0, 0), ("mediumaquamarine", 102, 205, 170), ("mediumblue", 0, 0, 205),
    ("mediumorchid", 186, 85, 211), ("mediumpurple", 147, 112, 219), ("mediumseagreen", 60, 179, 113),
    ("mediumslateblue", 123, 104, 238), ("mediumspringgreen", 0, 250, 154), ("mediumturquoise", 72, 209, 204),
    ("mediumvioletred", 199, 21, 133), ("midnightblue", 25, 25, 112), ("mintcream", 245, 255, 250),
    ("mistyrose", 255, 228, 225), ("moccasin", 255, 228, 181), ("navajowhite", 255, 222, 173), ("navy", 0, 0, 128),
    ("oldlace", 253, 245, 230), ("olive", 128, 128, 0), ("olivedrab", 107, 142, 35), ("orange", 255, 165, 0),
    ("orangered", 255, 69, 0), ("orchid", 218, 112, 214), ("palegoldenrod", 238, 232, 170),
    ("palegreen", 152, 251, 152), ("paleturquoise", 175, 238, 238), ("palevioletred", 219, 112, 147),
    ("papayawhip", 255, 239, 213), ("peachpuff", 255, 218, 185), ("peru", 205, 133, 63), ("pink", 255, 192, 203),
    ("plum", 221, 160, 221), ("powderblue", 176, 224, 230), ("purple", 128, 0, 128),
    ("rebeccapurple", 102, 51, 153), ("red", 255, 0, 0), ("rosybrown", 188, 143, 143), ("royalblue", 65, 105, 225),
    ("saddlebrown", 139, 69, 19), ("salmon", 250, 128, 114), ("sandybrown", 244, 164, 96),
    ("seagreen", 46, 139, 87), ("seashell", 255, 245, 238), ("sienna", 160, 82, 45), ("silver", 192, 192, 192),
    ("skyblue", 135, 206, 235), ("slateblue", 106, 90, 205), ("slategray", 112, 128, 144),
    ("slategrey", 112, 128, 144), ("snow", 255, 250, 250), ("springgreen", 0, 255, 127),
    ("steelblue", 70, 130, 180), ("tan", 210, 180, 140), ("teal", 0, 128, 128), ("thistle", 216, 191, 216),
    ("tomato", 255, 99, 71), ("turquoise", 64, 224, 208), ("violet", 238, 130, 238), ("wheat", 245, 222, 179),
    ("white", 255, 255, 255), ("whitesmoke", 245, 245, 245), ("yellow", 255, 255, 0), ("yellowgreen", 154, 205, 50)]

/-- `parse_color_keyword` -/
def keywordColor (s : String) : Option Color :=
  if s = "transparent" then fromRgba 0 0 0 0
  else if s = "currentcolor" then fromCurrent
  else (namedColors.lookup s).bind fun (r, g, b) => fromRgba r g b 1

/-- `parse_color` (color.rs:186-196), `parse_color_with`, on the token it reads; `hash`: the text of the hash tokens. -/
def colorTok (hash : Nat → Option String) : Tok → Option Color
  | .other n => (hash n).bind hashColor
  | .ident s => keywordColor s
  | .func name args =>
    match nested (functionP name) args with
    | .ok (some k) => some k
    | _ => none
  | _ => none

/-- The parser of a value that is a color (`parse_color`, color.rs:186-196) for the shorthands; `wrap`: the value as a
`ReflectValue`. -/
def colorP (hash : Nat → Option String) (wrap : Color → RV X) : P (RV X) := tok1 fun t => (colorTok hash t).map wrap

end Flair.Colors
