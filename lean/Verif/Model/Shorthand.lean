import Verif.Model.Calc
import Verif.Model.Values
/-!
# Model of `crates/bevy_flair_css_parser/src/shorthand.rs`

Tokens are the token trees of the crate `cssparser` without white space and comments: a function or block is
one tree with its contents.  Identifiers, units and function names are taken as already lower-cased.  A parser
takes the tokens that are left and gives a value and the tokens it leaves, a reported error, or a panic.

Parameters of the model (`Env`): the parsers of colors, gradients, image paths and grid tracks, and the names of
the variants of the three enumerations.  They can be anything.  `Rust` `f32` numbers are rationals here.
-/
namespace Flair.Shorthand
open Flair.Calc Flair.Values

/-- Token trees.  `percentage` carries the number before the `%`; `other` are hashes, strings, urls, .... -/
inductive Tok where
  | ident (s : String)
  | number (q : ℚ)
  | percentage (q : ℚ)
  | dimension (q : ℚ) (unit : String)
  | delim (c : Char)
  | comma
  | paren (ts : List Tok)
  | func (name : String) (ts : List Tok)
  | other (n : Nat)
  | quoted (s : String)

/-- A parser (`cssparser::Parser` is a mutable position; a failed parser's position is only ever used after a
reset, so it is left out). -/
def P (α : Type) : Type := List Tok → Res (α × List Tok)

instance : Monad P where
  pure a := fun ts => .ok (a, ts)
  bind p f := fun ts => (p ts).bind fun r => f r.1 r.2

variable {α β X : Type}

/-- An error of the parser. -/
def fail : P α := fun _ => .err

/-- `parser.next()` followed by a `match`; `none` is the error. -/
def tok1 (f : Tok → Option α) : P α
  | [] => .err
  | t :: ts => match f t with
    | some a => .ok (a, ts)
    | none => .err

/-- `parser.try_parse(p).ok()` (also `try_parse_with`, lib.rs:227-233): a failing parser is undone. -/
def tryP (p : P α) : P (Option α) := fun ts =>
  match p ts with
  | .ok (a, rest) => .ok (some a, rest)
  | .err => .ok (none, ts)
  | .panic => .panic

/-- `parser.try_parse(p).or_else(|_| q)` -/
def orElse (p q : P α) : P α := fun ts =>
  match p ts with
  | .ok r => .ok r
  | .err => q ts
  | .panic => .panic

/-- `expect_ident_matching`, on the token it reads -/
def identTok (s : String) : Tok → Option Unit
  | .ident x => if x = s then some () else none
  | _ => none

/-- `expect_delim`, on the token it reads -/
def delimTok (c : Char) : Tok → Option Unit
  | .delim x => if x = c then some () else none
  | _ => none

/-- `expect_comma`, on the token it reads -/
def commaTok : Tok → Option Unit
  | .comma => some ()
  | _ => none

/-- `expect_ident_matching` -/
def identIs (s : String) : P Unit := tok1 (identTok s)

/-- `expect_delim` -/
def delimIs (c : Char) : P Unit := tok1 (delimTok c)

/-- `expect_comma` -/
def comma : P Unit := tok1 commaTok

/-- `parse_nested_block` on the contents of a function: all of them have to be used. -/
def nested (p : P α) (args : List Tok) : Res α :=
  (p args).bind fun r => if r.2.isEmpty then .ok r.1 else .err

/-- `parser.parse_entirely(p)` -/
def entirely (p : P α) (ts : List Tok) : Res α := nested p ts

/-! ## Values -/

/-- What is kept of a `ReflectValue`; colors, gradients, tracks, ... are in `X`. -/
inductive RV (X : Type) where
  | val (v : Val)
  | float (q : ℚ)
  | val2 (x y : Val)
  | vec2 (x y : ℚ)
  | rot (turns : ℚ)
  | other (x : X)

mutual
/-- The tokens of `calc.rs` (see `Flair.Calc.Tok`). -/
def toCalc : Tok → Calc.Tok Tok
  | .number q => .number q
  | .delim c => .delim c
  | .paren ts => .paren (toCalcs ts)
  | .func name ts => if name = "calc" then .func (toCalcs ts) else .other (.func name ts)
  | .ident s => .other (.ident s)
  | .percentage q => .other (.percentage q)
  | .dimension q u => .other (.dimension q u)
  | .comma => .other .comma
  | .other n => .other (.other n)
  | .quoted s => .other (.quoted s)

/-- The contents of a block. -/
def toCalcs : List Tok → List (Calc.Tok Tok)
  | [] => []
  | t :: ts => toCalc t :: toCalcs ts
end

/-- A value parser, on the tokens of `calc.rs` (a block or a `calc()` is no value of any of them). -/
def onCalc {T : Type} (value : Tok → Option T) : Calc.Tok Tok → Option T
  | .number q => value (.number q)
  | .delim c => value (.delim c)
  | .other t => value t
  | _ => none

/-- `parse_calc_value` (calc.rs:329-344). -/
def calcP {T : Type} (value : Tok → Option T) (o : Ops T) : P T
  | [] => .err
  | t :: ts => (parseCalcValue (onCalc value) o (toCalc t)).bind fun v => .ok (v, ts)

/-- The units of `parse_val` (reflect/ui.rs:93-98). -/
def lengthUnits : List (String × LUnit) :=
  [("px", .px), ("vw", .vw), ("vh", .vh), ("vmin", .vmin), ("vmax", .vmax)]

/-- `parse_val` (reflect/ui.rs:85-116), on the token it reads. -/
def valTok : Tok → Option Val
  | .ident s => if s = "auto" then some .auto else none
  | .number q => some (.len .px q)
  | .percentage q => some (.len .percent q)
  | .dimension q u => (lengthUnits.lookup u).map fun u => .len u q
  | _ => none

/-- `parse_f32` (reflect/ui.rs:16-29). -/
def f32Tok : Tok → Option ℚ
  | .number q => some q
  | .dimension q u => if u = "px" then some q else none
  | _ => none

/-- `parse_angle` (reflect/ui.rs:132-166), in turns.  `rad` is left out: a radian is no rational part of a turn. -/
def angleTok : Tok → Option ℚ
  | .ident s => if s = "none" then some 0 else none
  | .number q => if q = 0 then some 0 else none
  | .dimension q u => ((if u = "deg" then some (q / 360) else if u = "grad" then some (q / 400)
      else if u = "turn" then some q else none) : Option ℚ).map wrap
  | _ => none

/-- `parse_val`. -/
def valP : P Val := tok1 valTok

/-- `parse_calc_val`, `parse_calc_f32` and `parse_calc_angle` (reflect/ui.rs:31, 118, 169). -/
def calcVal : P Val := calcP valTok valOps
@[inherit_doc calcVal] def calcF32 : P ℚ := calcP f32Tok f32Ops
@[inherit_doc calcVal] def calcAngle : P ℚ := calcP angleTok rotOps

/-- The keywords of `parse_property_global_keyword` (utils.rs:7-20), on the token it reads. -/
def keywordTok : Tok → Option (PropertyValue (RV X))
  | .ident s => if s = "unset" then some .unset else if s = "inherit" then some .inherit
      else if s = "initial" then some .initial else none
  | _ => none

/-- `parse_property_global_keyword` (utils.rs:7-20). -/
def keyword : P (PropertyValue (RV X)) := tok1 keywordTok

/-- `parse_property_value_with` (utils.rs:47-55) and `parse_calc_property_value_with` (calc.rs:351-363, with the
value parser being `parse_calc_value`). -/
def propValue (p : P (RV X)) : P (PropertyValue (RV X)) := fun ts =>
  orElse keyword (do let v ← p; pure (.value v)) ts

/-- `parse_val_as_property_value` (shorthand.rs:658-660). -/
def lengthValue : P (PropertyValue (RV X)) := propValue do let v ← calcVal; pure (.val v)

/-- The parameters of the model: `parse_color`, `parse_gradient`, `parse_asset_path::<Image>`,
`parse_grid_track_vec`, `parse_repeated_grid_track_vec` (with the value `GridTrack::auto()` and the empty lists);
the enumerations of `parse_enum_value` (reflect/enums.rs:96-100); the constructor of `BackgroundGradient` and the
four values of `GridAutoFlow`. -/
structure Env (X : Type) where
  color : P (RV X)
  gradient : P (RV X)
  asset : P (RV X)
  tracks : P (RV X)
  repeated : P (RV X)
  overflowAxis : String → Option (RV X)
  alignItems : String → Option (RV X)
  justifyItems : String → Option (RV X)
  gradients : List (RV X) → RV X
  autoTracks : RV X
  noTracks : RV X
  flow : Bool → Bool → RV X

/-- The longhands a shorthand sets, with their values (`ShorthandParseResult`, shorthand.rs:87-91); the text of a
shorthand is read by a `P (Assign X)`. -/
abbrev Assign (X : Type) := List (String × PropertyValue (RV X))

/-! ## The helpers -/

/-- The loop of `parse_four_values` (shorthand.rs:285-292); `n` is how many values may still come. -/
def moreValues (p : P α) : Nat → P (List α)
  | 0 => pure []
  | n + 1 => do
    match ← tryP p with
    | some v => do let vs ← moreValues p n; pure (v :: vs)
    | none => pure []

/-- The `match` of `parse_four_values` (shorthand.rs:294-300): top, right, bottom, left. -/
def expand : List α → Option (α × α × α × α)
  | [a] => some (a, a, a, a)
  | [a, b] => some (a, b, a, b)
  | [a, b, c] => some (a, b, c, b)
  | [a, b, c, d] => some (a, b, c, d)
  | _ => none

/-- `parse_four_values` (shorthand.rs:281-303). -/
def fourValues (p : P α) : P (α × α × α × α) := fun ts =>
  (p ts).bind fun r => (moreValues p 3 r.2).bind fun rs =>
    match expand (r.1 :: rs.1) with
    | some q => .ok (q, rs.2)
    | none => .panic

/-- The loop of `parse_simple_shorthand_property` (shorthand.rs:327-343); `prev` is the last value of the result. -/
def simpleLoop (prev : α) : List (String × Bool × P α) → P (List (String × α))
  | [] => pure []
  | (name, usePrevious, p) :: more => do
    match ← tryP p with
    | some v => do let rs ← simpleLoop v more; pure ((name, v) :: rs)
    | none => if usePrevious then do let rs ← simpleLoop prev more; pure ((name, prev) :: rs) else pure []

/-- `parse_simple_shorthand_property` (shorthand.rs:318-348), given its first property and the others. -/
def simple (name : String) (p : P α) (more : List (String × Bool × P α)) : P (List (String × α)) := do
  let v ← p
  let rs ← simpleLoop v more
  pure ((name, v) :: rs)

/-! ## The shorthands -/

/-- `parse_ui_rect` (shorthand.rs:350-358). -/
def uiRect (css : String) : P (Assign X) := do
  let (top, right, bottom, left) ← fourValues lengthValue
  pure [(css ++ "-left", left), (css ++ "-right", right), (css ++ "-top", top), (css ++ "-bottom", bottom)]

/-- `parse_border_color` (shorthand.rs:399-407). -/
def borderColor (env : Env X) : P (Assign X) := do
  let (top, right, bottom, left) ← fourValues (propValue env.color)
  pure [("border-top-color", top), ("border-right-color", right), ("border-bottom-color", bottom),
    ("border-left-color", left)]

/-- `parse_border_radius` (shorthand.rs:409-418). -/
def borderRadius : P (Assign X) := do
  let (topLeft, topRight, bottomRight, bottomLeft) ← fourValues lengthValue
  pure [("border-top-left-radius", topLeft), ("border-top-right-radius", topRight),
    ("border-bottom-left-radius", bottomLeft), ("border-bottom-right-radius", bottomRight)]

/-- `parse_enum_value` (reflect/enums.rs:96-100), on the token it reads. -/
def enumTok (names : String → Option (RV X)) : Tok → Option (RV X)
  | .ident s => names s
  | _ => none

/-- `parse_enum_as_property_value` (reflect/enums.rs:102-106). -/
def enumValue (names : String → Option (RV X)) : P (PropertyValue (RV X)) := propValue (tok1 (enumTok names))

/-- `parse_overflow` (shorthand.rs:426-435). -/
def overflow (env : Env X) : P (Assign X) :=
  simple "overflow-x" (enumValue env.overflowAxis) [("overflow-y", true, enumValue env.overflowAxis)]

/-- The names of `parse_border_style` (shorthand.rs:439-441). -/
def borderStyles : List String := ["dotted", "dashed", "solid", "double", "groove", "ridge", "inset", "outset"]

/-- `parse_border_style` (shorthand.rs:437-445), on the token it reads. -/
def borderStyleTok : Tok → Option Unit
  | .ident s => if s ∈ borderStyles then some () else none
  | _ => none

/-- `parse_border_style` (shorthand.rs:437-445). -/
def borderStyle : P Unit := tok1 borderStyleTok

/-- The last part of `parse_border_inner` and `parse_outline` (shorthand.rs:469-480, 560-564). -/
def optionalColor (env : Env X) (names : List String) : P (Assign X) := do
  match ← tryP (propValue env.color) with
  | some c => pure (names.map fun n => (n, c))
  | none => pure []

/-- The width of `parse_border_inner` (shorthand.rs:452-455). -/
def noneOrLength : P (PropertyValue (RV X)) := do
  match ← tryP (identIs "none") with
  | some () => pure (.value (.val .zero))
  | none => lengthValue

/-- `parse_border_inner` (shorthand.rs:447-479). -/
def borderInner (env : Env X) (widths colors : List String) : P (Assign X) := do
  let width ← noneOrLength
  let _ ← tryP borderStyle
  let cs ← optionalColor env colors
  pure (widths.map (fun n => (n, width)) ++ cs)

/-- `parse_border` (shorthand.rs:481-497). -/
def border (env : Env X) : P (Assign X) :=
  borderInner env ["border-left-width", "border-right-width", "border-bottom-width", "border-top-width"]
    ["border-top-color", "border-right-color", "border-bottom-color", "border-left-color"]

/-- `parse_border_top` ... `parse_border_left` (shorthand.rs:503-517). -/
def borderSide (env : Env X) (side : String) : P (Assign X) :=
  borderInner env ["border-" ++ side ++ "-width"] ["border-" ++ side ++ "-color"]

/-- The names of `parse_width_ident` (shorthand.rs:547-550). -/
def widthNames : List (String × Val) :=
  [("none", .zero), ("thin", .len .px 1), ("medium", .len .px 2), ("thick", .len .px 5)]

/-- `parse_width_ident` (shorthand.rs:540-550), on the token it reads. -/
def widthTok : Tok → Option Val
  | .ident s => widthNames.lookup s
  | _ => none

/-- `parse_border_width` (shorthand.rs:515-533). -/
def borderWidth : P (Assign X) := do
  match ← tryP (tok1 widthTok) with
  | some w =>
    pure [("border-left-width", .value (.val w)), ("border-right-width", .value (.val w)),
      ("border-top-width", .value (.val w)), ("border-bottom-width", .value (.val w))]
  | none => do
    let (top, right, bottom, left) ← fourValues lengthValue
    pure [("border-left-width", left), ("border-right-width", right), ("border-top-width", top),
      ("border-bottom-width", bottom)]

/-- `parse_ident_or_val` of `parse_outline` (shorthand.rs:557-561), on the token it reads. -/
def widthOrValTok (t : Tok) : Option Val := (widthTok t).or (valTok t)

/-- `parse_outline` (shorthand.rs:552-570). -/
def outline (env : Env X) : P (Assign X) := do
  let width ← propValue (do let v ← calcP widthOrValTok valOps; pure (.val v))
  let cs ← optionalColor env ["outline-color"]
  pure (("outline-width", width) :: cs)

/-- `expect_number` -/
def numberTok : Tok → Option ℚ
  | .number q => some q
  | _ => none

/-- `final_result` of `parse_flex` (shorthand.rs:583-598). -/
def flexResult (grow shrink : ℚ) (basis : Val) : Assign X :=
  [("flex-grow", .value (.float grow)), ("flex-shrink", .value (.float shrink)), ("flex-basis", .value (.val basis))]

/-- `parse_flex` (shorthand.rs:578-627). -/
def flex : P (Assign X) := do
  match ← tryP (identIs "none") with
  | some () => pure (flexResult 0 0 .auto)
  | none => do
    match ← tryP (tok1 numberTok) with
    | some grow => do
      let shrink ← tryP (tok1 numberTok)
      let basis ← tryP valP
      pure (flexResult grow (shrink.getD 1) (basis.getD (.len .percent 0)))
    | none => do
      let basis ← valP
      pure (flexResult 1 1 basis)

/-- `parse_place_items` (shorthand.rs:635-651). -/
def placeItems (env : Env X) : P (Assign X) :=
  simple "align-items" (enumValue env.alignItems) [("justify-items", false, enumValue env.justifyItems)]

/-- `parse_gap` (shorthand.rs:663-671). -/
def gap : P (Assign X) := simple "column-gap" lengthValue [("row-gap", true, lengthValue)]

/-- The state of `parse_background_image_inner`: the image and the gradients found so far. -/
abbrev Layers (X : Type) := Option (RV X) × List (RV X)

/-- The closure of `parse_background_image_inner` (shorthand.rs:691-698). -/
def bgLayer (env : Env X) (acc : Layers X) : P (Layers X) := do
  match ← tryP env.asset with
  | some image => pure (some image, acc.2)
  | none => do
    match ← tryP env.gradient with
    | some g => pure (acc.1, acc.2 ++ [g])
    | none => pure acc

/-- `parse_comma_separated_with` (lib.rs:215-225).  Every round but the first begins with a comma, so the number
of tokens bounds the rounds (`fuel`). -/
def bgLayers (env : Env X) (acc : Layers X) : Nat → P (Layers X)
  | 0 => bgLayer env acc
  | fuel + 1 => do
    let acc ← bgLayer env acc
    match ← tryP comma with
    | some () => bgLayers env acc fuel
    | none => pure acc

/-- The image part of the result of `parse_background_image_inner` (shorthand.rs:700-702). -/
def imagePart : Option (RV X) → Assign X
  | some i => [("-bevy-image", .value i)]
  | none => []

/-- The gradient part of the result of `parse_background_image_inner` (shorthand.rs:703-708). -/
def gradientPart (env : Env X) (gs : List (RV X)) : Assign X :=
  if gs.isEmpty then [] else [("-bevy-background-gradient", .value (env.gradients gs))]

/-- `parse_background_image_inner` (shorthand.rs:679-705), `parse_background_image` (707-711). -/
def backgroundImage (env : Env X) : P (Assign X) := fun ts =>
  (bgLayers env (none, []) ts.length ts).bind fun r => .ok (imagePart r.1.1 ++ gradientPart env r.1.2, r.2)

/-- `parse_background` (shorthand.rs:713-723). -/
def background (env : Env X) : P (Assign X) := do
  let c ← optionalColor env ["background-color"]
  let rs ← backgroundImage env
  pure (c ++ rs)

/-- `parse_grid_template` (shorthand.rs:734-751). -/
def gridTemplate (env : Env X) : P (Assign X) := do
  match ← tryP (identIs "none") with
  | some () => pure [("grid-template-rows", .value env.noTracks), ("grid-template-columns", .value env.noTracks)]
  | none => do
    let rows ← propValue env.repeated
    delimIs '/'
    let cols ← propValue env.repeated
    pure [("grid-template-rows", rows), ("grid-template-columns", cols)]

/-- `parse_auto_flow` (shorthand.rs:772-786); `column` and `dense` name the `GridAutoFlow`. -/
def autoFlow (env : Env X) (column : Bool) : P (PropertyValue (RV X)) := do
  identIs "auto-flow"
  let dense ← tryP (identIs "dense")
  pure (.value (env.flow column dense.isSome))

/-- The second form of `parse_grid` (shorthand.rs:794-809). -/
def gridColumns (env : Env X) : P (Assign X) := do
  let rows ← propValue env.repeated
  delimIs '/'
  let fl ← autoFlow env true
  let cols ← tryP (propValue env.tracks)
  pure [("grid-auto-flow", fl), ("grid-template-rows", rows), ("grid-template-columns", .value env.noTracks),
    ("grid-auto-rows", .value env.autoTracks), ("grid-auto-columns", cols.getD (.value env.autoTracks))]

/-- The third form of `parse_grid` (shorthand.rs:814-831). -/
def gridRows (env : Env X) : P (Assign X) := do
  let fl ← autoFlow env false
  let rows ← tryP (propValue env.tracks)
  delimIs '/'
  let cols ← propValue env.repeated
  pure [("grid-auto-flow", fl), ("grid-template-rows", .value env.noTracks), ("grid-template-columns", cols),
    ("grid-auto-rows", rows.getD (.value env.autoTracks)), ("grid-auto-columns", .value env.autoTracks)]

/-- `parse_grid` (shorthand.rs:758-827). -/
def grid (env : Env X) : P (Assign X) := orElse (gridTemplate env) (orElse (gridColumns env) (gridRows env))

/-- `let y = try { expect_comma()?; p }.unwrap_or(d)` (shorthand.rs:850-855, 899-905). -/
def commaArg (p : P α) (d : α) : P α := do
  let y ← tryP (do comma; p)
  pure (y.getD d)

/-- The arguments of the functions of `parse_ui_transform_translation` (shorthand.rs:845-869); `none` is
another function. -/
def translateArgs (name : String) : Option (P (RV X)) :=
  if name = "translate" then some do
    let x ← calcVal
    let y ← commaArg calcVal .zero
    pure (.val2 x y)
  else if name = "translatex" then some do let x ← calcVal; pure (.val2 x .zero)
  else if name = "translatey" then some do let y ← calcVal; pure (.val2 .zero y)
  else none

/-- The arguments of the functions of `parse_ui_transform_scale` (shorthand.rs:896-921). -/
def scaleArgs (name : String) : Option (P (RV X)) :=
  if name = "scale" then some do
    let x ← calcF32
    let y ← commaArg calcF32 x
    pure (.vec2 x y)
  else if name = "scalex" then some do let x ← calcF32; pure (.vec2 x 1)
  else if name = "scaley" then some do let y ← calcF32; pure (.vec2 1 y)
  else none

/-- The arguments of the functions of `parse_ui_transform_rotation` (shorthand.rs:944-948). -/
def rotateArgs (name : String) : Option (P (RV X)) :=
  if name = "rotate" ∨ name = "rotatez" then some do let a ← calcAngle; pure (.rot a) else none

/-- The names of the functions `parse_ui_transform_translation` leaves to the others (shorthand.rs:870-873). -/
def afterTranslate : List String := ["scale", "scalex", "scaley", "rotate", "rotatez"]

/-- The names of the translations. -/
def translateNames : List String := ["translate", "translatex", "translatey"]

/-- The names that come too late for a rotation (shorthand.rs:949). -/
def beforeRotate : List String := ["scale", "scalex", "scaley", "translate", "translatex", "translatey"]

/-- `parse_ui_transform_translation` (shorthand.rs:835-876). -/
def translation : P (Option (RV X))
  | .func name args :: ts =>
    match translateArgs name with
    | some p => (nested p args).bind fun v => .ok (some v, ts)
    | none => if name ∈ afterTranslate then .ok (none, .func name args :: ts) else .err
  | _ => .err

/-- `parse_ui_transform_scale` (shorthand.rs:881-925). -/
def scaling : P (Option (RV X))
  | .func name args :: ts =>
    match scaleArgs name with
    | some p => (nested p args).bind fun v => .ok (some v, ts)
    | none => if name ∈ translateNames then .err else .ok (none, .func name args :: ts)
  | ts => .ok (none, ts)

/-- `parse_ui_transform_rotation` (shorthand.rs:927-951). -/
def rotation : P (Option (RV X))
  | .func name args :: ts =>
    match rotateArgs name with
    | some p => (nested p args).bind fun v => .ok (some v, ts)
    | none => if name ∈ beforeRotate then .err else .ok (none, .func name args :: ts)
  | ts => .ok (none, ts)

/-- One part of the result of `parse_transform` (shorthand.rs:986-994). -/
def transformPart (name : String) : Option (RV X) → Assign X
  | some v => [(name, .value v)]
  | none => []

/-- `todo!()` -/
def crash : P α := fun _ => .panic

/-- `parse_transform` (shorthand.rs:953-985); `combined_parse` is utils.rs:105-128. -/
def transform : P (Assign X) := do
  match ← tryP (identIs "none") with
  | some () => crash
  | none => do
    let t ← translation
    let s ← scaling
    let r ← rotation
    if t.isSome || s.isSome || r.isSome then
      pure (transformPart "translate" t ++ transformPart "scale" s ++ transformPart "rotate" r)
    else fail

/-! ## The registry -/

/-- `ShorthandProperty` (shorthand.rs:101-105). -/
structure ShorthandProperty (X : Type) where
  name : String
  subs : List String
  body : P (Assign X)

/-- `ui_rect_sub_properties` (shorthand.rs:367-374). -/
def rectSubs (css : String) : List String := [css ++ "-left", css ++ "-right", css ++ "-top", css ++ "-bottom"]

/-- `register_default_shorthand_properties` (shorthand.rs:987-1098). -/
def defaults (env : Env X) : List (ShorthandProperty X) := [
  ⟨"overflow", ["overflow-x", "overflow-y"], overflow env⟩,
  ⟨"outline", ["outline-width", "outline-color"], outline env⟩,
  ⟨"border", ["border-left-width", "border-right-width", "border-top-width", "border-bottom-width",
    "border-top-color", "border-right-color", "border-bottom-color", "border-left-color"], border env⟩,
  ⟨"border-top", ["border-top-width", "border-top-color"], borderSide env "top"⟩,
  ⟨"border-right", ["border-right-width", "border-right-color"], borderSide env "right"⟩,
  ⟨"border-bottom", ["border-bottom-width", "border-bottom-color"], borderSide env "bottom"⟩,
  ⟨"border-left", ["border-left-width", "border-left-color"], borderSide env "left"⟩,
  ⟨"border-color", ["border-top-color", "border-right-color", "border-bottom-color", "border-left-color"],
    borderColor env⟩,
  ⟨"border-radius", ["border-top-left-radius", "border-top-right-radius", "border-bottom-left-radius",
    "border-bottom-right-radius"], borderRadius⟩,
  ⟨"margin", rectSubs "margin", uiRect "margin"⟩,
  ⟨"padding", rectSubs "padding", uiRect "padding"⟩,
  ⟨"border-width", ["border-left-width", "border-right-width", "border-top-width", "border-bottom-width"],
    borderWidth⟩,
  ⟨"flex", ["flex-grow", "flex-shrink", "flex-basis"], flex⟩,
  ⟨"place-items", ["align-items", "justify-items"], placeItems env⟩,
  ⟨"background-image", ["-bevy-image", "-bevy-background-gradient"], backgroundImage env⟩,
  ⟨"background", ["background-color", "-bevy-image", "-bevy-background-gradient"], background env⟩,
  ⟨"gap", ["column-gap", "row-gap"], gap⟩,
  ⟨"grid-template", ["grid-template-rows", "grid-template-columns"], gridTemplate env⟩,
  ⟨"grid", ["grid-template-rows", "grid-template-columns", "grid-auto-flow", "grid-auto-rows", "grid-auto-columns"],
    grid env⟩,
  ⟨"transform", ["translate", "scale", "rotate"], transform⟩]

/-- `ShorthandProperty::parse` (shorthand.rs:183-193). -/
def ShorthandProperty.parse (s : ShorthandProperty X) : P (Assign X) := do
  match ← tryP keyword with
  | some v => pure (s.subs.map fun n => (n, v))
  | none => s.body

/-- `try_parse_important_level` (utils.rs:96-102). -/
def important : P Bool := do
  let i ← tryP (do delimIs '!'; identIs "important")
  pure i.isSome

/-- The text of a shorthand declaration in a rule (`parse_ruleset_property`, parser.rs:141-163): the longhands it
sets, and whether it is important.  (The fallback for `var()` is `viaVar`.) -/
def ShorthandProperty.declare (s : ShorthandProperty X) (ts : List Tok) : Res (Assign X × Bool) :=
  entirely (do let ps ← s.parse; let i ← important; pure (ps, i)) ts

/-- `as_dynamic_parse_var_tokens` (shorthand.rs:144-181): what is done with the tokens after `var()` has been
replaced in them. -/
def ShorthandProperty.viaVar (s : ShorthandProperty X) (ts : List Tok) : Res (Assign X) :=
  entirely s.body ts

end Flair.Shorthand
