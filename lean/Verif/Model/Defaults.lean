import Verif.Model.Reflect
import Verif.Model.Registry
/-!
# Model of the built-in properties

The declarations, the registered components, the inherited ones and the css names of
`crates/bevy_flair_core/src/impls.rs`, the types that have a parser
(`crates/bevy_flair_css_parser/src/reflect.rs` 104-160), the registration of the shorthands
(`crates/bevy_flair_css_parser/src/shorthand.rs` 1107-1137) and the way from the name of a declaration to its parser
(`crates/bevy_flair_css_parser/src/parser.rs` 116-232).  Components are named by their type instead of their type
path.
-/
namespace Flair.Defaults
open Flair.Reflect Flair.Registry

/-- The types of the values of the built-in properties (as they occur in impls.rs). -/
inductive VT where
  | boxShadow
  | zIndex
  | backgroundGradient
  | borderGradient
  | lineHeight
  | textShadow
  | val
  | overflowAxis
  | display
  | boxSizing
  | positionType
  | number
  | overflowClipMargin
  | optNumber
  | alignItems
  | justifyItems
  | alignSelf
  | justifySelf
  | alignContent
  | justifyContent
  | flexDirection
  | flexWrap
  | gridAutoFlow
  | repeatedTracks
  | tracks
  | gridPlacement
  | color
  | val2
  | vec2
  | rot2
  | image
  | atlas
  | boolean
  | optRect
  | nodeImageMode
  | font
  | fontSmoothing
  | justify
  | lineBreak
  | string
deriving DecidableEq

private abbrev p (t : VT) : Layout := .prop t.ctorIdx

/-! The declarations, impls.rs 13-181, in their order. -/

/-- `UiRect` -/
def uiRect : Layout := .struct [
  ("left", p .val), ("right", p .val), ("top", p .val),
   ("bottom", p .val)]

/-- `Overflow` -/
def overflow : Layout := .struct [
  ("x", p .overflowAxis), ("y", p .overflowAxis)]

/-- `BorderRadius` -/
def borderRadius : Layout := .struct [
  ("top_left", p .val), ("top_right", p .val),
   ("bottom_right", p .val), ("bottom_left", p .val)]

/-- `Node` -/
def node : Layout := .struct [
  ("display", p .display), ("box_sizing", p .boxSizing),
   ("position_type", p .positionType), ("overflow", overflow),
   ("scrollbar_width", p .number), ("overflow_clip_margin", p .overflowClipMargin),
   ("left", p .val), ("right", p .val), ("top", p .val),
   ("bottom", p .val), ("width", p .val), ("height", p .val),
   ("min_width", p .val), ("min_height", p .val),
   ("max_width", p .val), ("max_height", p .val),
   ("aspect_ratio", p .optNumber), ("align_items", p .alignItems),
   ("justify_items", p .justifyItems), ("align_self", p .alignSelf),
   ("justify_self", p .justifySelf), ("align_content", p .alignContent),
   ("justify_content", p .justifyContent), ("margin", uiRect), ("padding", uiRect),
   ("border", uiRect), ("border_radius", borderRadius), ("flex_direction", p .flexDirection),
   ("flex_wrap", p .flexWrap), ("flex_grow", p .number),
   ("flex_shrink", p .number), ("flex_basis", p .val),
   ("row_gap", p .val), ("column_gap", p .val),
   ("grid_auto_flow", p .gridAutoFlow), ("grid_template_rows", p .repeatedTracks),
   ("grid_template_columns", p .repeatedTracks), ("grid_auto_rows", p .tracks),
   ("grid_auto_columns", p .tracks), ("grid_row", p .gridPlacement),
   ("grid_column", p .gridPlacement)]

/-- `BackgroundColor` -/
def backgroundColor : Layout := .struct [
  ("0", p .color)]

/-- `BorderColor` -/
def borderColor : Layout := .struct [
  ("top", p .color), ("right", p .color), ("bottom", p .color),
   ("left", p .color)]

/-- `Outline` -/
def outline : Layout := .struct [
  ("width", p .val), ("offset", p .val), ("color", p .color)]

/-- `BoxShadow` -/
def boxShadow : Layout := .self VT.boxShadow.ctorIdx

/-- `ZIndex` -/
def zIndex : Layout := .self VT.zIndex.ctorIdx

/-- `UiTransform` -/
def uiTransform : Layout := .struct [
  ("translation", p .val2), ("scale", p .vec2), ("rotation", p .rot2)]

/-- `BackgroundGradient` -/
def backgroundGradient : Layout := .self VT.backgroundGradient.ctorIdx

/-- `BorderGradient` -/
def borderGradient : Layout := .self VT.borderGradient.ctorIdx

/-- `ImageNode` -/
def imageNode : Layout := .struct [
  ("color", p .color), ("image", p .image),
   ("texture_atlas", p .atlas), ("flip_x", p .boolean),
   ("flip_y", p .boolean), ("rect", p .optRect),
   ("image_mode", p .nodeImageMode)]

/-- `TextColor` -/
def textColor : Layout := .struct [
  ("0", p .color)]

/-- `LineHeight` -/
def lineHeight : Layout := .self VT.lineHeight.ctorIdx

/-- `TextFont` -/
def textFont : Layout := .struct [
  ("font", p .font), ("font_size", p .number),
   ("font_smoothing", p .fontSmoothing)]

/-- `TextLayout` -/
def textLayout : Layout := .struct [
  ("justify", p .justify), ("linebreak", p .lineBreak)]

/-- `TextSpan` -/
def textSpan : Layout := .struct [
  ("0", p .string)]

/-- `TextShadow` -/
def textShadow : Layout := .self VT.textShadow.ctorIdx

/-- `register_component_properties!` (impls.rs 225-242) -/
def components : List (String × Layout) := [
  ("Node", node), ("BackgroundColor", backgroundColor), ("Outline", outline), ("BorderColor", borderColor),
  ("BoxShadow", boxShadow), ("ZIndex", zIndex), ("UiTransform", uiTransform),
  ("BackgroundGradient", backgroundGradient), ("BorderGradient", borderGradient), ("ImageNode", imageNode),
  ("TextColor", textColor), ("LineHeight", lineHeight), ("TextFont", textFont), ("TextLayout", textLayout),
  ("TextShadow", textShadow), ("TextSpan", textSpan)]

/-- `set_inherited_properties!` (impls.rs 244) -/
def inherited : List String := ["TextColor", "TextFont", "TextLayout", "LineHeight"]

/-- `set_css_properties!` (impls.rs 246-341) -/
def cssNames : List (String × String × Path) := [
  ("display", "Node", ["display"]), ("box-sizing", "Node", ["box_sizing"]),
   ("position", "Node", ["position_type"]), ("overflow-x", "Node", ["overflow", "x"]),
   ("overflow-y", "Node", ["overflow", "y"]), ("-bevy-scrollbar-width", "Node", ["scrollbar_width"]),
   ("overflow-clip-margin", "Node", ["overflow_clip_margin"]), ("left", "Node", ["left"]),
   ("right", "Node", ["right"]), ("top", "Node", ["top"]), ("bottom", "Node", ["bottom"]),
   ("width", "Node", ["width"]), ("height", "Node", ["height"]), ("min-width", "Node", ["min_width"]),
   ("min-height", "Node", ["min_height"]), ("max-width", "Node", ["max_width"]),
   ("max-height", "Node", ["max_height"]), ("aspect-ratio", "Node", ["aspect_ratio"]),
   ("align-items", "Node", ["align_items"]), ("justify-items", "Node", ["justify_items"]),
   ("align-self", "Node", ["align_self"]), ("justify-self", "Node", ["justify_self"]),
   ("align-content", "Node", ["align_content"]), ("justify-content", "Node", ["justify_content"]),
   ("margin-top", "Node", ["margin", "top"]), ("margin-right", "Node", ["margin", "right"]),
   ("margin-bottom", "Node", ["margin", "bottom"]), ("margin-left", "Node", ["margin", "left"]),
   ("padding-top", "Node", ["padding", "top"]), ("padding-right", "Node", ["padding", "right"]),
   ("padding-bottom", "Node", ["padding", "bottom"]), ("padding-left", "Node", ["padding", "left"]),
   ("border-left-width", "Node", ["border", "left"]), ("border-right-width", "Node", ["border", "right"]),
   ("border-top-width", "Node", ["border", "top"]), ("border-bottom-width", "Node", ["border", "bottom"]),
   ("flex-direction", "Node", ["flex_direction"]), ("flex-wrap", "Node", ["flex_wrap"]),
   ("flex-grow", "Node", ["flex_grow"]), ("flex-shrink", "Node", ["flex_shrink"]),
   ("flex-basis", "Node", ["flex_basis"]), ("row-gap", "Node", ["row_gap"]),
   ("column-gap", "Node", ["column_gap"]), ("grid-auto-flow", "Node", ["grid_auto_flow"]),
   ("grid-template-rows", "Node", ["grid_template_rows"]),
   ("grid-template-columns", "Node", ["grid_template_columns"]), ("grid-auto-rows", "Node", ["grid_auto_rows"]),
   ("grid-auto-columns", "Node", ["grid_auto_columns"]), ("grid-row", "Node", ["grid_row"]),
   ("grid-column", "Node", ["grid_column"]), ("border-top-left-radius", "Node", ["border_radius", "top_left"]),
   ("border-top-right-radius", "Node", ["border_radius", "top_right"]),
   ("border-bottom-left-radius", "Node", ["border_radius", "bottom_left"]),
   ("border-bottom-right-radius", "Node", ["border_radius", "bottom_right"]),
   ("background-color", "BackgroundColor", ["0"]), ("border-top-color", "BorderColor", ["top"]),
   ("border-right-color", "BorderColor", ["right"]), ("border-bottom-color", "BorderColor", ["bottom"]),
   ("border-left-color", "BorderColor", ["left"]), ("outline-width", "Outline", ["width"]),
   ("outline-offset", "Outline", ["offset"]), ("outline-color", "Outline", ["color"]),
   ("box-shadow", "BoxShadow", []), ("z-index", "ZIndex", []), ("translate", "UiTransform", ["translation"]),
   ("scale", "UiTransform", ["scale"]), ("rotate", "UiTransform", ["rotation"]),
   ("-bevy-background-gradient", "BackgroundGradient", []), ("border-image", "BorderGradient", []),
   ("-bevy-image", "ImageNode", ["image"]), ("-bevy-image-color", "ImageNode", ["color"]),
   ("-bevy-image-mode", "ImageNode", ["image_mode"]), ("-bevy-image-rect", "ImageNode", ["rect"]),
   ("color", "TextColor", ["0"]), ("font-family", "TextFont", ["font"]),
   ("font-size", "TextFont", ["font_size"]), ("line-height", "LineHeight", []),
   ("-bevy-font-smooth", "TextFont", ["font_smoothing"]), ("text-align", "TextLayout", ["justify"]),
   ("-bevy-line-break", "TextLayout", ["linebreak"]), ("content", "TextSpan", ["0"]),
   ("text-shadow", "TextShadow", [])]

/-- The types that `ReflectParsePlugin` gives a parser (reflect.rs 104-160). -/
def parsers : List VT := [
  .number, .vec2, .string, .val, .val2, .rot2, .color, .overflowClipMargin, .optNumber, .optRect, .zIndex, .image, .font,
  .repeatedTracks, .tracks, .gridPlacement, .nodeImageMode, .boxShadow, .backgroundGradient, .borderGradient,
  .lineHeight, .textShadow,
  .display, .boxSizing, .positionType, .overflowAxis, .alignItems, .justifyItems, .alignSelf, .justifySelf,
  .alignContent, .justifyContent, .flexDirection, .flexWrap, .gridAutoFlow, .fontSmoothing, .justify, .lineBreak]

/-- The canonical name of a property (component_property.rs 164-196): component and path. -/
abbrev Name := String × Path

/-- What `unset` means for a property (registry.rs 176): nothing, or to inherit. -/
inductive Unset where
  | none
  | inherit
deriving DecidableEq

/-- The canonical names of the properties of a component. -/
def canonical (x : String × Layout) : List Name := x.2.properties.map fun q => (x.1, q.1)

/-- One component of `set_inherited_properties!` (impls.rs 192-210): all its properties inherit -/
def inherit1 (r : Reg Name String Unset) (t : String) : Option (Reg Name String Unset) :=
  (r.component t).bind fun x =>
    (List.range' x.2.1 (x.2.2 - x.2.1)).foldlM (fun r i => r.setUnset (.id i) .inherit) r

/-- `ImplComponentPropertiesPlugin::build` (impls.rs 223-342), the property registry.  (The ids of all the inherited
components are collected before the first value is set; setting values does not change the ids.) -/
def build : Option (Reg Name String Unset) :=
  (components.foldlM (fun (r : Reg Name String Unset) x => r.register .none x.1 (canonical x)) Reg.empty).bind fun r =>
    inherited.foldlM inherit1 r

/-- The same, the css registry (246-341). -/
def buildCss : Option (Css String Name) :=
  cssNames.foldlM (fun c x => c.registerProperty x.1 (.name x.2)) Css.empty

/-- `ShorthandPropertiesPlugin::finish` (shorthand.rs 1118-1137) with the shorthands in the order of the iteration
over the hash map; `none` is a panic -/
def finish (c : Css String Name) (shorthands : List (String × List String)) : Option (Css String Name) :=
  shorthands.foldlM (fun c s => (s.2.mapM c.properties).bind (c.registerShorthand s.1)) c

/-- What a declaration in a rule is read as. -/
inductive Target (τ : Type) where
  | shorthand (name : String)
  | property (id : Nat) (type : τ)
  | notParseable
  | notRecognized
deriving DecidableEq

/-- The start of `parse_ruleset_property` (parser.rs 146-147, 187-205): a shorthand by its name, else a property by
its name, which needs a parser for its type.  `typeOf` is the type of the value of a property. -/
def target {τ : Type} [DecidableEq τ] (shorthands : List String) (c : Css String Name) (r : Reg Name String Unset)
    (typeOf : Nat → τ) (parsers : List τ) (name : String) : Target τ :=
  if name ∈ shorthands then .shorthand name
  else match c.resolveProperty r name with
    | none => .notRecognized
    | some i => if typeOf i ∈ parsers then .property i (typeOf i) else .notParseable

end Flair.Defaults
