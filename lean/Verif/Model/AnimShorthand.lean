import Verif.Model.AnimProps
/-!
# Model of the parser of the `animation` and `transition` shorthands

`crates/bevy_flair_css_parser/src/parser/animations.rs` (240-380, 364-530).  A token is what one component
parser reads: a time, a number, an identifier, a quoted string, or a whole easing function (`steps(..)`,
`linear(..)`, `cubic-bezier(..)`).  Identifiers are taken as already lower-cased.  A comma is read by no
component parser, so the list between two commas is parsed on its own (`parse_comma_separated_with`,
lib.rs 215-225) and has to be consumed entirely (`parse_entirely`, 540-550).  `!important` is not modelled.
-/
namespace Flair.AnimShorthand
open Flair.AnimProps Flair.Animation

/-- Timing functions: one of the keywords (184-191), or a function. -/
inductive Easing where
  | keyword (s : String)
  | function (id : Nat)
deriving DecidableEq

/-- Tokens, see above. -/
inductive Tok where
  | time (ns : Nat)
  | number (n : Nat)
  | ident (s : String)
  | quoted (s : String)
  | easing (id : Nat)
  | other (id : Nat)
deriving DecidableEq

abbrev Value := Val String Easing

/-- `parse_duration` (240-264) -/
def pDuration : Tok → Option Nat
  | .time d => some d
  | _ => none

/-- The keywords of `parse_animation_direction` (316-320) -/
def directions : List (String × Direction) :=
  [("normal", .normal), ("reverse", .reverse), ("alternate", .alternate), ("alternate-reverse", .alternateReverse)]

/-- The keywords of `parse_animation_fill_mode` (335-339) -/
def fills : List (String × Fill) :=
  [("none", .none), ("forwards", .forwards), ("backwards", .backwards), ("both", .both)]

/-- The keywords of `parse_animation_play_state` (352-354) -/
def playStates : List (String × Bool) := [("running", false), ("paused", true)]

/-- The keywords of `parse_easing_function` (184-191) -/
def easings : List (String × Easing) :=
  ["linear", "ease", "ease-in", "ease-out", "ease-in-out", "step-start", "step-end"].map fun s => (s, .keyword s)

/-- `parse_animation_direction` (311-330) -/
def pDirection : Tok → Option Direction
  | .ident s => directions.lookup s
  | _ => none

/-- `parse_animation_fill_mode` (332-347) -/
def pFill : Tok → Option Fill
  | .ident s => fills.lookup s
  | _ => none

/-- `parse_iteration_count` (292-309) -/
def pCount : Tok → Option (Option Nat)
  | .ident s => if s = "infinite" then some none else none
  | .number n => some (some n)
  | _ => none

/-- `parse_animation_play_state` (349-362) -/
def pPlay : Tok → Option Bool
  | .ident s => playStates.lookup s
  | _ => none

/-- `parse_easing_function` (171-218) -/
def pEasing : Tok → Option Easing
  | .ident s => easings.lookup s
  | .easing i => some (.function i)
  | _ => none

/-- `parse_animation_name` (266-277) -/
def pName : Tok → Option String
  | .ident s => some s
  | .quoted s => some s
  | _ => none

/-- `parse_property_name` (279-290) -/
def pProperty : Tok → Option String
  | .ident s => some s
  | _ => none

/-- `contains_property` (369-372) -/
def has {P : Type} [DecidableEq P] (r : List (P × Value)) (p : P) : Bool := r.any fun e => e.1 = p

/-- The last two components of an iteration (442-465): the component added, or `none` for `break`. -/
def lastTwo (r : List (AId × Value)) (t : Tok) : Option (AId × Value) :=
  if !has r .timing && (pEasing t).isSome then (pEasing t).map fun e => (.timing, .timing e)
  else if !has r .name && (pName t).isSome then (pName t).map fun n => (.name, .name n)
  else none

/-- The components of an iteration that are tried before the play state, each followed by `continue`
(385-432). -/
def firstFour (r : List (AId × Value)) (t : Tok) : Option (AId × Value) :=
  if !has r .duration && (pDuration t).isSome then (pDuration t).map fun d => (.duration, .duration d)
  else if has r .duration && !has r .delay && (pDuration t).isSome then
    (pDuration t).map fun d => (.delay, .duration d)
  else if !has r .direction && (pDirection t).isSome then (pDirection t).map fun d => (.direction, .direction d)
  else if !has r .fillMode && (pFill t).isSome then (pFill t).map fun d => (.fillMode, .fillMode d)
  else if !has r .iterationCount && (pCount t).isSome then
    (pCount t).map fun d => (.iterationCount, .iterationCount d)
  else none

/-- The loop of `parse_animation_shorthand` (364-466) from the components `r` already read: the components,
and the tokens left.  After a play state there is no `continue` (434-441): the same iteration goes on and
tries only the timing function and the name on the next token. -/
def loop (r : List (AId × Value)) : List Tok → List (AId × Value) × List Tok
  | [] => (r, [])
  | t :: ts =>
    match firstFour r t with
    | some c => loop (r ++ [c]) ts
    | none =>
      if !has r .playState && (pPlay t).isSome then
        let r := r ++ [(.playState, .playState ((pPlay t).getD false))]
        match ts with
        | [] => (r, [])
        | t' :: ts' =>
          match lastTwo r t' with
          | some c => loop (r ++ [c]) ts'
          | none => (r, t' :: ts')
      else
        match lastTwo r t with
        | some c => loop (r ++ [c]) ts
        | none => (r, t :: ts)

/-- One animation of the list, `None` when tokens are left. -/
def parseOne (ts : List Tok) : Option (List (AId × Value)) :=
  if (loop [] ts).2 = [] then some (loop [] ts).1 else none

/-- `animation: ..` with the segments between commas. -/
def parseAnimation (segments : List (List Tok)) : Option (List (List (AId × Value))) := segments.mapM parseOne

/-- An iteration of the loop of `parse_transition_shorthand` (468-527) -/
def tOne (r : List (TId × Value)) (t : Tok) : Option (TId × Value) :=
  if !has r .duration && (pDuration t).isSome then (pDuration t).map fun d => (.duration, .duration d)
  else if has r .duration && !has r .delay && (pDuration t).isSome then
    (pDuration t).map fun d => (.delay, .duration d)
  else if !has r .timing && (pEasing t).isSome then (pEasing t).map fun e => (.timing, .timing e)
  else if !has r .property && (pProperty t).isSome then (pProperty t).map fun n => (.property, .name n)
  else none

/-- The loop of `parse_transition_shorthand` (468-527) -/
def tLoop (r : List (TId × Value)) : List Tok → List (TId × Value) × List Tok
  | [] => (r, [])
  | t :: ts =>
    match tOne r t with
    | some c => tLoop (r ++ [c]) ts
    | none => (r, t :: ts)

/-- One transition of the list. -/
def tParseOne (ts : List Tok) : Option (List (TId × Value)) :=
  if (tLoop [] ts).2 = [] then some (tLoop [] ts).1 else none

end Flair.AnimShorthand
