import Verif.Model.AnimShorthand
import Verif.Model.Easing
import Verif.Model.Gradient
/-!
# Model of the parser of `animation-*` and `transition-*` declarations, on tokens

`crates/bevy_flair_css_parser/src/parser/animations.rs`.  `Model/AnimShorthand` starts from tokens that are already
classified (a time, a number, a timing function ..); here they are the tokens of css (`Flair.Shorthand.Tok`, where a
function holds its contents).  All component parsers read exactly one such token, so they are functions of a token.

Simplifications: an integer is a number without fraction (`1.0` is not told from `1`); numbers are rational (rounding
of `f32` is not modelled, an infinite `f32` is any number from `2^64` on); error texts are left out; the flag
`seen_var_or_env_functions` is taken as set whenever `var()` or `env()` occurs in the declaration.
-/
namespace Flair.AnimParse
open Flair.Shorthand Flair.AnimProps Flair.Animation
open Flair.Calc (Res)
open Flair.Easing (StepPosition Point linearPoints stepPosition)

/-- ASCII lower case, for `eq_ignore_ascii_case` and `match_ignore_ascii_case!`. -/
def lower (s : String) : String := String.ofList (s.toList.map Char.toLower)

/-- `EasingFunction` (style/src/animations/easing.rs 79-107). -/
inductive Timing where
  | linear | ease | easeIn | easeOut | easeInOut
  | linearPoints (points : List (ℚ × ℚ))
  | steps (n : ℤ) (pos : StepPosition)
  | cubicBezier (x1 y1 x2 y2 : ℚ)
deriving DecidableEq

/-- `AnimationSpecificValue` -/
abbrev Value := Val String Timing

/-- The `int_value` of a numeric token (crate cssparser): only for integers, and cut to an `i32`. -/
def int32 (q : ℚ) : Option ℤ := if q.den = 1 then some (max (-2 ^ 31) (min (2 ^ 31 - 1) q.num)) else none

/-- An error when there is nothing. -/
def orErr {α : Type} : Option α → Res α
  | some a => .ok a
  | none => .err

/-- `Duration::from_secs_f32`, in nanoseconds: it panics when the seconds do not fit into a `u64`. -/
def secsToNanos (q : ℚ) : Res ℕ := if q < 2 ^ 64 then .ok ⌊q * 10 ^ 9 + 1 / 2⌋.toNat else .panic

/-- A time in milliseconds (animations.rs 250-256): an integer that is not negative. -/
def millisToNanos (q : ℚ) : Res ℕ := orErr ((int32 q).bind fun n => if 0 ≤ n then some (n.toNat * 10 ^ 6) else none)

/-- `parse_duration` (animations.rs 240-265). -/
def duration : Tok → Res ℕ
  | .dimension q u =>
    if 0 ≤ q ∧ lower u = "s" then secsToNanos q else if lower u = "ms" then millisToNanos q else .err
  | _ => .err

/-- `parse_animation_name` (animations.rs 267-278). -/
def name : Tok → Res String
  | .ident s => .ok s
  | .quoted s => .ok s
  | _ => .err

/-- `parse_property_name` (animations.rs 280-291). -/
def property : Tok → Res String
  | .ident s => .ok s
  | _ => .err

/-- `parse_iteration_count` (animations.rs 293-310); `none` is infinite. -/
def count : Tok → Res (Option ℕ)
  | .ident s => if lower s = "infinite" then .ok none else .err
  | .number q => orErr ((int32 q).bind fun n => if 0 ≤ n then some (some n.toNat) else none)
  | _ => .err

/-- An identifier that is a keyword of the list, whatever its case (`match_ignore_ascii_case!`). -/
def keywordOf {β : Type} (l : List (String × β)) : Tok → Res β
  | .ident s => orErr (l.lookup (lower s))
  | _ => .err

/-- `parse_animation_direction` (animations.rs 312-331). -/
def direction : Tok → Res Direction := keywordOf AnimShorthand.directions

/-- `parse_animation_fill_mode` (animations.rs 333-348). -/
def fillMode : Tok → Res Fill := keywordOf AnimShorthand.fills

/-- `parse_animation_play_state` (animations.rs 350-363). -/
def playState : Tok → Res Bool := keywordOf AnimShorthand.playStates

/-- `expect_percentage`, on the token it reads: a part of 1. -/
def percentTok : Tok → Option ℚ
  | .percentage q => some (q / 100)
  | _ => none

/-- `expect_integer`, on the token it reads. -/
def integerTok : Tok → Option ℤ
  | .number q => int32 q
  | _ => none

/-- `expect_ident`, on the token it reads. -/
def wordTok : Tok → Option String
  | .ident s => some s
  | _ => none

/-- `if !parser.is_exhausted() { Some(..) } else { None }` -/
def unlessDone {α : Type} (p : P α) : P (Option α) := fun ts =>
  if ts.isEmpty then .ok (none, ts) else (p ts).bind fun r => .ok (some r.1, r.2)

/-- A control point of `linear()` (animations.rs 38-47). -/
def point : P Point := do
  let value ← tok1 numberTok
  let progress ← unlessDone (tok1 percentTok)
  pure (progress, value)

/-- The parts between commas (`parse_comma_separated` of crate cssparser); never empty. -/
def segments : List Tok → List (List Tok)
  | [] => [[]]
  | .comma :: ts => [] :: segments ts
  | t :: ts => (t :: (segments ts).headD []) :: (segments ts).tail

/-- `Result` of a list of parsers. -/
def mapRes {α β : Type} (f : α → Res β) : List α → Res (List β)
  | [] => .ok []
  | a :: l => (f a).bind fun b => (mapRes f l).bind fun bs => .ok (b :: bs)

/-- A panic when there is nothing. -/
def orPanic {α : Type} : Option α → Res α
  | some a => .ok a
  | none => .panic

/-- `parse_easing_linear_parameters` (animations.rs 23-114). -/
def linearArgs (ts : List Tok) : Res Timing :=
  if ts.isEmpty then .ok (.linearPoints [])
  else (mapRes (nested point) (segments ts)).bind fun ps => (orPanic (linearPoints ps)).bind fun out =>
    .ok (.linearPoints out)

/-- The position of `parse_easing_steps_parameters` (animations.rs 128-146). -/
def positionP : P StepPosition := do
  comma
  tok1 fun t => (wordTok t).bind fun s => stepPosition (lower s)

/-- `parse_easing_steps_parameters` (animations.rs 116-150); the default is `end` (easing.rs). -/
def stepsArgs : P Timing := do
  let n ← tok1 integerTok
  let pos ← unlessDone positionP
  pure (.steps n (pos.getD .end))

/-- `parse_easing_cubic_bezier_parameters` (animations.rs 152-169). -/
def bezierArgs : P Timing := do
  let x1 ← tok1 numberTok
  comma
  let y1 ← tok1 numberTok
  comma
  let x2 ← tok1 numberTok
  comma
  let y2 ← tok1 numberTok
  pure (.cubicBezier x1 y1 x2 y2)

/-- The keywords of `parse_easing_function` (animations.rs 175-182); `STEP_START` and `STEP_END` are in easing.rs
(112-122). -/
def timings : List (String × Timing) :=
  [("linear", .linear), ("ease", .ease), ("ease-in", .easeIn), ("ease-out", .easeOut), ("ease-in-out", .easeInOut),
    ("step-start", .steps 1 .jumpStart), ("step-end", .steps 1 .jumpEnd)]

/-- `parse_easing_function` (animations.rs 171-218). -/
def timing : Tok → Res Timing
  | .ident s => orErr (timings.lookup (lower s))
  | .func f args =>
    if lower f = "linear" then linearArgs args
    else if lower f = "steps" then nested stepsArgs args
    else if lower f = "cubic-bezier" then nested bezierArgs args
    else .err
  | _ => .err

/-! ## The shorthands -/

/-- A component that may be tried on a token: whether it is (its guard), and what it reads. -/
abbrev Try (P : Type) := Bool × (Tok → Res (P × Value))

/-- What `f` reads, for the component `p`. -/
def comp {P α : Type} (p : P) (mk : α → Value) (f : Tok → Res α) : Tok → Res (P × Value) :=
  fun t => (f t).bind fun v => .ok (p, mk v)

/-- A chain of `if guard && let Ok(v) = parser.try_parse_with(..) { push; .. }`. -/
def firstOf {P : Type} (t : Tok) : List (Try P) → Res (Option (P × Value))
  | [] => .ok none
  | (false, _) :: more => firstOf t more
  | (true, f) :: more =>
    match f t with
    | .ok c => .ok (some c)
    | .err => firstOf t more
    | .panic => .panic

/-- `contains_property` (animations.rs 370-373, 473-476) -/
def has {P : Type} [DecidableEq P] (r : List (P × Value)) (p : P) : Bool := r.any fun e => e.1 = p

/-- The components before the play state (animations.rs 387-434), each followed by `continue`. -/
def early (r : List (AId × Value)) : List (Try AId) :=
  [(!has r .duration, comp .duration .duration duration),
   (has r .duration && !has r .delay, comp .delay .duration duration),
   (!has r .direction, comp .direction .direction direction),
   (!has r .fillMode, comp .fillMode .fillMode fillMode),
   (!has r .iterationCount, comp .iterationCount .iterationCount count)]

/-- The components after the play state (animations.rs 445-463). -/
def late (r : List (AId × Value)) : List (Try AId) :=
  [(!has r .timing, comp .timing .timing timing), (!has r .name, comp .name .name name)]

/-- The play state (animations.rs 436-443): there is no `continue` after it. -/
def play (r : List (AId × Value)) : List (Try AId) := [(!has r .playState, comp .playState .playState playState)]

/-- The components of `parse_transition_shorthand` (animations.rs 485-525). -/
def tComps (r : List (TId × Value)) : List (Try TId) :=
  [(!has r .duration, comp .duration .duration duration),
   (has r .duration && !has r .delay, comp .delay .duration duration),
   (!has r .timing, comp .timing .timing timing),
   (!has r .property, comp .property .name property)]

/-- The loop of `parse_animation_shorthand` (animations.rs 375-466) from the components `r` on; `played` says that
the iteration has just read the play state, so that only the components after it are tried. -/
def aLoop (played : Bool) (r : List (AId × Value)) : List Tok → Res (List (AId × Value) × List Tok)
  | [] => .ok (r, [])
  | t :: ts =>
    (if played then .ok none else firstOf t (early r)).bind fun
    | some c => aLoop false (r ++ [c]) ts
    | none => (if played then .ok none else firstOf t (play r)).bind fun
      | some c => aLoop true (r ++ [c]) ts
      | none => (firstOf t (late r)).bind fun
        | some c => aLoop false (r ++ [c]) ts
        | none => .ok (r, t :: ts)

/-- `parse_animation_shorthand` (animations.rs 365-466) -/
def animationP : P (List (AId × Value)) := aLoop false []

/-- The loop of `parse_transition_shorthand` (animations.rs 478-527) -/
def tLoop (r : List (TId × Value)) : List Tok → Res (List (TId × Value) × List Tok)
  | [] => .ok (r, [])
  | t :: ts =>
    (firstOf t (tComps r)).bind fun
    | some c => tLoop (r ++ [c]) ts
    | none => .ok (r, t :: ts)

/-- `parse_transition_shorthand` (animations.rs 468-529) -/
def transitionP : P (List (TId × Value)) := tLoop []

/-! ## The declarations -/

/-- A parser of one token. -/
def one {α : Type} (f : Tok → Res α) : P α
  | [] => .err
  | t :: ts => (f t).bind fun a => .ok (a, ts)

/-- `parse_animation_values` (animations.rs 531-542): what `try_parse_important_level` finds is dropped. -/
def values {α : Type} (p : P α) (ts : List Tok) : Res (List α) :=
  entirely (do let vs ← Flair.Gradient.commaSep p; let _ ← important; pure vs) ts

mutual
/-- `var(..)` or `env(..)` occurs. -/
def hasVar : Tok → Bool
  | .func f args => lower f = "var" || lower f = "env" || hasVars args
  | .paren ts => hasVars ts
  | _ => false
/-- The same in a list. -/
def hasVars : List Tok → Bool
  | [] => false
  | t :: ts => hasVar t || hasVars ts
end

/-- `AnimationValues` (properties.rs): values, or the tokens to be read once the variables are known. -/
inductive Values (α : Type) where
  | specific (vs : List α)
  | dynamic (ts : List Tok)

/-- `parse_animation_property_helper` (animations.rs 561-595).  `varTokens` is `parse_var_tokens` on the whole text
(with the `!important` at the end), see `Model/CssToken`. -/
def helper {α : Type} (varTokens : List Tok → Option (List Tok)) (p : P α) (ts : List Tok) : Res (Values α) :=
  match values p ts with
  | .ok vs => .ok (.specific vs)
  | .err => if hasVars ts then orErr ((varTokens ts).map .dynamic) else .err
  | .panic => .panic

/-- `AnimationProperty` (properties.rs) -/
inductive Decl (P : Type) where
  | single (p : P) (vs : Values Value)
  | shorthand (vs : Values (List (P × Value)))

/-- A longhand. -/
def longhand {P α : Type} (varTokens : List Tok → Option (List Tok)) (p : P) (mk : α → Value) (f : Tok → Res α)
    (ts : List Tok) : Res (Decl P) :=
  (helper varTokens (one fun t => (f t).bind fun v => .ok (mk v)) ts).bind fun vs => .ok (.single p vs)

/-- `try_parse_none` with the `!important` that may follow (animations.rs 617-625, 700-708): `none` alone is the empty
list.  What follows is left to the caller, which requires the end (crate cssparser, `parse_until_before`). -/
def noneAlone {P : Type} (p : P) (ts : List Tok) : Option (Res (Decl P)) :=
  match ts with
  | .ident s :: rest =>
    if lower s = "none" then some ((nested (important) rest).bind fun _ => .ok (.single p (.specific [])))
    else none
  | _ => none

/-- A longhand with names, where `none` is allowed. -/
def namesDecl {P : Type} (varTokens : List Tok → Option (List Tok)) (p : P) (f : Tok → Res String)
    (ts : List Tok) : Res (Decl P) := (noneAlone p ts).getD (longhand varTokens p .name f ts)

/-- The longhands of `parse_animation_property` (animations.rs 608-685), in this order. -/
def aLonghands (vt : List Tok → Option (List Tok)) : List (String × (List Tok → Res (Decl AId))) :=
  [("animation-name", namesDecl vt .name name),
   ("animation-duration", longhand vt .duration .duration duration),
   ("animation-delay", longhand vt .delay .duration duration),
   ("animation-direction", longhand vt .direction .direction direction),
   ("animation-fill-mode", longhand vt .fillMode .fillMode fillMode),
   ("animation-iteration-count", longhand vt .iterationCount .iterationCount count),
   ("animation-play-state", longhand vt .playState .playState playState),
   ("animation-timing-function", longhand vt .timing .timing timing)]

/-- `parse_animation_property` (animations.rs 608-685). -/
def animationDecl (vt : List Tok → Option (List Tok)) (css : String) (ts : List Tok) : Res (Decl AId) :=
  if lower css = "animation" then (helper vt animationP ts).bind fun vs => .ok (.shorthand vs)
  else (orErr ((aLonghands vt).lookup (lower css))).bind fun f => f ts

/-- The longhands of `parse_transition_property` (animations.rs 694-747), in this order. -/
def tLonghands (vt : List Tok → Option (List Tok)) : List (String × (List Tok → Res (Decl TId))) :=
  [("transition-property", namesDecl vt .property property),
   ("transition-duration", longhand vt .duration .duration duration),
   ("transition-delay", longhand vt .delay .duration duration),
   ("transition-timing-function", longhand vt .timing .timing timing)]

/-- `parse_transition_property` (animations.rs 694-747). -/
def transitionDecl (vt : List Tok → Option (List Tok)) (css : String) (ts : List Tok) : Res (Decl TId) :=
  if lower css = "transition" then (helper vt transitionP ts).bind fun vs => .ok (.shorthand vs)
  else (orErr ((tLonghands vt).lookup (lower css))).bind fun f => f ts

end Flair.AnimParse
