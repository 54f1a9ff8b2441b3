import Verif.Model.Shorthand
/-!
# Model of the value parsers of longhands

`crates/bevy_flair_css_parser/src/reflect/{ui,grid,image,text,enums}.rs` and the longhand part of
`parse_ruleset_property` (parser.rs:188-245), on the tokens of `Model/Shorthand`.

Simplifications: `f32` numbers are rationals; a number token that is an integer counts as written without a fraction
(`3.0` is not told apart from `3`); strings and paths are left out.  The parameter `color` is `parse_color`, on the
token it reads (a color is one token or one function); it can be anything.
-/
namespace Flair.Longhand
open Flair.Calc Flair.Values Flair.Shorthand

variable {α K X : Type}

/-! ## Values -/

/-- `GridTrackType` (reflect/grid.rs:14-25): the size of a track.  `fr` is the flexible one. -/
inductive Size where
  | auto
  | minContent
  | maxContent
  | percent (q : ℚ)
  | px (q : ℚ)
  | vmin (q : ℚ)
  | vmax (q : ℚ)
  | vh (q : ℚ)
  | vw (q : ℚ)
  | fr (q : ℚ)
  deriving DecidableEq

/-- `GridTrack`: how it was built. -/
inductive Track where
  | size (s : Size)
  | fitPx (q : ℚ)
  | fitPercent (q : ℚ)
  | minmax (min max : Size)
  deriving DecidableEq

/-- `GridTrackRepetition` -/
inductive Repetition where
  | count (n : Nat)
  | autoFill
  | autoFit
  deriving DecidableEq

/-- `RepeatedGridTrack` -/
structure Repeated where
  repetition : Repetition
  tracks : List Track
  deriving DecidableEq

/-- `GridPlacement`: `start`, `start_end` and `start_span`. -/
inductive Placement where
  | start (s : Int)
  | startEnd (s e : Int)
  | startSpan (s : Int) (n : Nat)
  deriving DecidableEq

/-- `ShadowStyle`; what is not given is `none` (its default is that of `ShadowStyle::default()`). -/
structure Shadow (K : Type) where
  color : Option K
  xOffset : Val
  yOffset : Val
  blur : Option Val
  spread : Option Val

/-- `SliceScaleMode` -/
inductive Slice where
  | stretch
  | tile (q : ℚ)
  deriving DecidableEq

/-- `NodeImageMode`; the borders of a sliced image are top, right, bottom and left. -/
inductive ImageMode where
  | auto
  | stretch
  | tiled (x y : Bool) (stretch : ℚ)
  | sliced (top right bottom left : ℚ) (center sides : Slice) (corner : ℚ)
  deriving DecidableEq

/-- `LineHeight` -/
inductive LineHeight where
  | normal
  | relative (q : ℚ)
  | px (q : ℚ)
  deriving DecidableEq

/-- What is kept of the values of longhands; `K` are the colors.  A ratio is kept as its two numbers (the code
divides them); `clip` is the box (its name, or the default) and the margin. -/
inductive LV (K : Type) where
  | color (k : K)
  | rect (x0 y0 x1 y1 : ℚ)
  | ratio (r : Option (ℚ × ℚ))
  | clip (box : Option String) (margin : ℚ)
  | zIndex (n : Int)
  | shadows (ss : List (Shadow K))
  | textShadow (color : Option K) (x y : ℚ)
  | noTextShadow
  | lineHeight (h : LineHeight)
  | imageMode (m : ImageMode)
  | tracks (ts : List Track)
  | repeated (rs : List Repeated)
  | placement (p : Placement)

/-! ## Helpers -/

/-- The loop of `parse_many` (utils.rs:62-64) and `parse_box_shadow` (reflect/ui.rs:285-290).  Every round takes a
token, so the number of tokens bounds the rounds (`fuel`). -/
def manyLoop (p : P α) : Nat → P (List α)
  | 0 => pure []
  | fuel + 1 => do
    match ← tryP p with
    | some v => do let vs ← manyLoop p fuel; pure (v :: vs)
    | none => pure []

/-- `while let Ok(v) = parser.try_parse_with(p)` -/
def loop (p : P α) : P (List α) := fun ts => manyLoop p ts.length ts

/-- `parse_many` (utils.rs:57-66). -/
def many (p : P α) : P (List α) := do
  let v ← p
  let vs ← loop p
  pure (v :: vs)

/-- `try_parse_none` (utils.rs:68-75) followed by the rest of a parser. -/
def noneOr (v : α) (p : P α) : P α := do
  match ← tryP (identIs "none") with
  | some () => pure v
  | none => p

/-- The integer of `Token::Number` (`int_value`), which `cssparser` keeps in the range of `i32`. -/
def intTok : Tok → Option Int
  | .number q => if q.den = 1 then some (max (-2147483648) (min 2147483647 q.num)) else none
  | _ => none

/-! ## `reflect/ui.rs` -/

/-- `parse_vec2` (reflect/ui.rs:35-43). -/
def vec2P : P (RV X) := noneOr (.vec2 0 0) do
  let x ← calcF32
  let y ← tryP calcF32
  pure (.vec2 x (y.getD x))

/-- `parse_val2` (reflect/ui.rs:122-130). -/
def val2P : P (RV X) := noneOr (.val2 .zero .zero) do
  let x ← calcVal
  let y ← tryP calcVal
  pure (.val2 x (y.getD x))

/-- `parse_rect` (reflect/ui.rs:45-55). -/
def rectP : P (RV (LV K)) := noneOr (.other (.rect 0 0 0 0)) do
  let x0 ← calcF32
  let y0 ← calcF32
  let x1 ← calcF32
  let y1 ← calcF32
  pure (.other (.rect x0 y0 x1 y1))

/-- `parse_overflow_clip_margin` (reflect/ui.rs:172-182); `boxes` are the names of `OverflowClipBox`. -/
def clipMarginP (boxes : String → Option String) : P (RV (LV K)) := do
  match ← tryP calcF32 with
  | some m => pure (.other (.clip none m))
  | none => do
    let b ← tok1 fun t => match t with
      | .ident s => boxes s
      | _ => none
    let m ← calcF32
    pure (.other (.clip (some b) m))

/-- `parse_aspect_ratio` (reflect/ui.rs:184-202). -/
def aspectRatioP : P (RV (LV K)) := do
  match ← tryP (identIs "auto") with
  | some () => pure (.other (.ratio none))
  | none => do
    let a ← calcF32
    let b ← tryP (do delimIs '/'; calcF32)
    pure (.other (.ratio (some (a, b.getD 1))))

/-- `parse_z_index` (reflect/ui.rs:228-230). -/
def zIndexP : P (RV (LV K)) := do
  let n ← tok1 intTok
  pure (.other (.zIndex n))

/-- The `match` of `parse_single_box_shadow_style` (reflect/ui.rs:254-282). -/
def shadowOf (color : Option K) : List Val → Option (Shadow K)
  | [x, y] => some ⟨color, x, y, none, none⟩
  | [x, y, b] => some ⟨color, x, y, some b, none⟩
  | [x, y, b, s] => some ⟨color, x, y, some b, some s⟩
  | _ => none

/-- `parse_single_box_shadow_style` (reflect/ui.rs:232-285). -/
def shadowP (color : Tok → Option K) : P (Shadow K) := do
  let c1 ← tryP (tok1 color)
  let x ← calcVal
  let y ← calcVal
  let more ← moreValues calcVal 2
  let c2 ← tryP (tok1 color)
  match shadowOf (c2.or c1) (x :: y :: more) with
  | some s => pure s
  | none => fail

/-- `parse_box_shadow` (reflect/ui.rs:287-299). -/
def boxShadowP (color : Tok → Option K) : P (RV (LV K)) := do
  let s ← shadowP color
  let ss ← loop (do comma; shadowP color)
  pure (.other (.shadows (s :: ss)))

/-! ## `reflect/text.rs` -/

/-- `parse_line_height` (reflect/text.rs:23-48), on the token it reads. -/
def lineHeightTok : Tok → Option LineHeight
  | .ident s => if s = "normal" then some .normal else none
  | .number q => some (.relative q)
  | .percentage q => some (.relative (q / 100))
  | .dimension q u => if u = "px" then some (.px q) else if u = "em" then some (.relative q) else none
  | _ => none

/-- `parse_line_height` (reflect/text.rs:23-48). -/
def lineHeightP : P (RV (LV K)) := do
  let h ← tok1 lineHeightTok
  pure (.other (.lineHeight h))

/-- `parse_text_shadow` (reflect/text.rs:50-78). -/
def textShadowP (color : Tok → Option K) : P (RV (LV K)) := noneOr (.other .noTextShadow) do
  match ← tryP (tok1 color) with
  | some c => do
    let x ← calcF32
    let y ← calcF32
    pure (.other (.textShadow (some c) x y))
  | none => do
    let x ← calcF32
    let y ← calcF32
    let c ← tryP (tok1 color)
    pure (.other (.textShadow c x y))

/-! ## `reflect/image.rs` -/

/-- `parse_tiled_params` (reflect/image.rs:29-53): the loop over all tokens. -/
def tiledArgs (x y : Bool) (stretch : ℚ) : List Tok → Option ImageMode
  | [] => some (.tiled x y stretch)
  | .ident s :: ts =>
    if s = "tile_x" then tiledArgs true y stretch ts
    else if s = "tile_y" then tiledArgs x true stretch ts
    else none
  | .number q :: ts => tiledArgs x y q ts
  | _ :: _ => none

/-- `parse_slice_scale_mode` (reflect/image.rs:55-70). -/
def sliceP : P Slice
  | .ident s :: ts => if s = "auto" ∨ s = "stretch" then .ok (.stretch, ts) else .err
  | .func name args :: ts => if name = "tile" then (nested calcF32 args).bind fun q => .ok (.tile q, ts) else .err
  | _ => .err

/-- `parse_sliced_params` (reflect/image.rs:72-90). -/
def slicedArgs : P ImageMode := do
  let (top, right, bottom, left) ← fourValues calcF32
  let center ← tryP sliceP
  let sides ← tryP sliceP
  let corner ← tryP calcF32
  pure (.sliced top right bottom left (center.getD .stretch) (sides.getD .stretch) (corner.getD 1))

/-- `parse_image_mode` (reflect/image.rs:93-126). -/
def imageModeP : P (RV (LV K))
  | .ident s :: ts =>
    if s = "auto" then .ok (.other (.imageMode .auto), ts)
    else if s = "stretch" then .ok (.other (.imageMode .stretch), ts)
    else .err
  | .func name args :: ts =>
    if name = "tiled" then
      match tiledArgs false false 1 args with
      | some m => .ok (.other (.imageMode m), ts)
      | none => .err
    else if name = "sliced" then (nested slicedArgs args).bind fun m => .ok (.other (.imageMode m), ts)
    else .err
  | _ => .err

/-! ## `reflect/grid.rs` -/

/-- The units of `parse_grid_track_type` (reflect/grid.rs:131-165). -/
def sizeUnits : List (String × (ℚ → Size)) :=
  [("px", .px), ("fr", .fr), ("vmin", .vmin), ("vmax", .vmax), ("vh", .vh), ("vw", .vw)]

/-- `parse_grid_track_type` (reflect/grid.rs:119-182), on the token it reads; `flexible` is whether the type has `fr`. -/
def sizeTok (flexible : Bool) : Tok → Option Size
  | .ident s =>
    if s = "auto" then some .auto
    else if s = "min-content" then some .minContent
    else if s = "max-content" then some .maxContent
    else none
  | .percentage q => some (.percent q)
  | .dimension q u => if u = "fr" ∧ flexible = false then none else (sizeUnits.lookup u).map fun f => f q
  | _ => none

/-- The argument of `fit-content()` (reflect/grid.rs:187-208), on the token it reads. -/
def fitTok : Tok → Option Track
  | .percentage q => some (.fitPercent q)
  | .number q => some (.fitPx q)
  | .dimension q u => if u = "px" then some (.fitPx q) else none
  | _ => none

/-- The arguments of `minmax()` (reflect/grid.rs:209-216). -/
def minmaxArgs : P Track := do
  let a ← tok1 (sizeTok false)
  comma
  let b ← tok1 (sizeTok true)
  pure (.minmax a b)

/-- `parse_grid_track` (reflect/grid.rs:184-219). -/
def trackP : P Track
  | .func name args :: ts =>
    if name = "fit-content" then (nested (tok1 fitTok) args).bind fun t => .ok (t, ts)
    else if name = "minmax" then (nested minmaxArgs args).bind fun t => .ok (t, ts)
    else .err
  | t :: ts =>
    match sizeTok true t with
    | some s => .ok (.size s, ts)
    | none => .err
  | [] => .err

/-- `parse_grid_track_vec` (reflect/grid.rs:221-231). -/
def tracksP : P (RV (LV K)) := noneOr (.other (.tracks [])) do
  let ts ← many trackP
  pure (.other (.tracks ts))

/-- `value as u16` (reflect/grid.rs:241): the low sixteen bits. -/
def asU16 (n : Int) : Nat := (n % 65536).toNat

/-- The repetition of `parse_repeat_function_args` (reflect/grid.rs:234-265), on the token it reads. -/
def repetitionTok (t : Tok) : Option Repetition :=
  match t with
  | .number _ => (intTok t).map fun n => .count (asU16 n)
  | .ident s => if s = "auto-fill" then some .autoFill else if s = "auto-fit" then some .autoFit else none
  | _ => none

/-- `parse_repeat_function_args` (reflect/grid.rs:233-275). -/
def repeatArgs : P Repeated := do
  let r ← tok1 repetitionTok
  comma
  let ts ← many trackP
  pure ⟨r, ts⟩

/-- The closure of `parse_repeated_grid_track_vec` (reflect/grid.rs:282-291); a single track is repeated once
(`From<GridTrack> for RepeatedGridTrack`). -/
def repeatedTrackP : P Repeated
  | .func name args :: ts =>
    if name = "repeat" then (nested repeatArgs args).bind fun r => .ok (r, ts)
    else (trackP (.func name args :: ts)).bind fun r => .ok (⟨.count 1, [r.1]⟩, r.2)
  | ts => (trackP ts).bind fun r => .ok (⟨.count 1, [r.1]⟩, r.2)

/-- `parse_repeated_grid_track_vec` (reflect/grid.rs:277-293). -/
def repeatedP : P (RV (LV K)) := noneOr (.other (.repeated [])) do
  let rs ← many repeatedTrackP
  pure (.other (.repeated rs))

/-- `non_zero!` and `convert_integer!(_ as i16)` (reflect/grid.rs:295-321). -/
def toI16 (n : Int) : Option Int := if n ≠ 0 ∧ -32768 ≤ n ∧ n ≤ 32767 then some n else none

/-- `non_zero!` and `convert_integer!(_ as u16)` (reflect/grid.rs:295-321). -/
def toU16 (n : Int) : Option Nat := if 0 < n ∧ n ≤ 65535 then some n.toNat else none

/-- What may follow a `/` in `parse_grid_placement` (reflect/grid.rs:333-354). -/
def placementEnd (start : Int) : P Placement
  | .ident s :: ts => if s = "span" then (tok1 (fun t => (intTok t).bind toU16) ts).bind fun r => .ok (.startSpan start r.1, r.2) else .err
  | ts => (tok1 (fun t => (intTok t).bind toI16) ts).bind fun r => .ok (.startEnd start r.1, r.2)

/-- `parse_grid_placement` (reflect/grid.rs:323-359). -/
def placementP : P (RV (LV K)) := do
  let s ← tok1 (fun t => (intTok t).bind toI16)
  let r ← tryP (do delimIs '/'; placementEnd s)
  pure (.other (.placement (r.getD (.start s))))

/-! ## `reflect/enums.rs` -/

/-- `eq_ignore_ascii_case` and `to_lowercase`, of one character. -/
def lower (c : Char) : Char := c.toLower

/-- `enum_variant_to_css_case` (reflect/enums.rs:21-38), of the characters after the first; variant names are ASCII. -/
def cssCaseTail : List Char → List Char
  | [] => []
  | c :: cs => if c.isUpper then '-' :: lower c :: cssCaseTail cs else c :: cssCaseTail cs

/-- `enum_variant_to_css_case` (reflect/enums.rs:21-38). -/
def cssCase : List Char → List Char
  | [] => []
  | c :: cs => (if c.isUpper then lower c else c) :: cssCaseTail cs

/-- `eq_ignore_ascii_case` -/
def eqIgnoreCase (a b : List Char) : Bool := a.map lower = b.map lower

/-- `create_unit_enum_from_reflection` (reflect/enums.rs:40-93): the variants are their names and whether they are unit
variants. -/
def enumOf (variants : List (List Char × Bool)) (s : List Char) : Option (List Char) :=
  (variants.find? fun v => eqIgnoreCase v.1 (s.filter (· ≠ '-'))).bind fun v => if v.2 then some v.1 else none

/-! ## Declarations -/

/-- The text of a longhand declaration in a rule (`parse_ruleset_property`, parser.rs:207-232), for a type whose
`ReflectParseCss` is `parse_property_value_with(p)`: the value, and whether it is important.  (The fallback for
`var()` is left out.) -/
def declareP (p : P (RV X)) (ts : List Tok) : Res (PropertyValue (RV X) × Bool) :=
  entirely (do let v ← propValue p; let i ← important; pure (v, i)) ts

end Flair.Longhand
