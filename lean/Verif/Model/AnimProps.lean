import Verif.Model.Animation
/-!
# Model of the `animation-*` and `transition-*` properties

`crates/bevy_flair_style/src/animations/properties.rs` and `resolve_transition_options`
(`style_sheet.rs` 229-271).  `N`: names (`Arc<str>`), `E`: timing functions (`EasingFunction`).
Debug assertions are not modelled (a value of the wrong variant reads as `None`, as in release builds).
-/
namespace Flair.AnimProps
open Flair.Animation
variable {N E P I : Type}

/-- `AnimationPropertyId` (20-45) -/
inductive AId where
  | name | duration | delay | direction | fillMode | iterationCount | playState | timing
deriving DecidableEq

/-- `TransitionPropertyId` (51-64) -/
inductive TId where
  | property | duration | delay | timing
deriving DecidableEq

/-- `AnimationSpecificValue` (71-88).  Durations are in nanoseconds; an iteration count is `none` for
`Infinite`; a play state is `true` for `Paused`. -/
inductive Val (N E : Type) where
  | name (n : N)
  | duration (d : Nat)
  | direction (d : Direction)
  | fillMode (f : Fill)
  | iterationCount (c : Option Nat)
  | playState (paused : Bool)
  | timing (e : E)
  | default

/-- `as_name` (97-115, 133) -/
def Val.asName : Val N E → Option N
  | .name n => some n
  | _ => none
/-- `as_duration` (134) -/
def Val.asDuration : Val N E → Option Nat
  | .duration d => some d
  | _ => none
/-- `as_direction` (135) -/
def Val.asDirection : Val N E → Option Direction
  | .direction d => some d
  | _ => none
/-- `as_fill_mode` (136) -/
def Val.asFillMode : Val N E → Option Fill
  | .fillMode f => some f
  | _ => none
/-- `as_iteration_count` (137) -/
def Val.asIterationCount : Val N E → Option (Option Nat)
  | .iterationCount c => some c
  | _ => none
/-- `as_play_state` (138) -/
def Val.asPlayState : Val N E → Option Bool
  | .playState p => some p
  | _ => none
/-- `as_timing_function` (139) -/
def Val.asTiming : Val N E → Option E
  | .timing e => some e
  | _ => none

/-- `AnimationProperty` (206-217) together with the result of `AnimationValues::resolve` (183-199) on it:
`none` when a variable is missing or the substituted tokens do not parse. -/
inductive Decl (P N E : Type) where
  | shorthand (values : Option (List (List (P × Val N E))))
  | single (p : P) (values : Option (List (Val N E)))

/-- The `HashMap` from property ids to lists of values. -/
abbrev Out (P N E : Type) := P → Option (List (Val N E))

/-- `HashMap::insert` / `remove` -/
def Out.put [DecidableEq P] (o : Out P N E) (p : P) (x : Option (List (Val N E))) : Out P N E :=
  fun q => if q = p then x else o q

/-- `RESET_PROPERTIES` of `animation` (283-292) -/
def resetA : List AId :=
  [.delay, .direction, .duration, .fillMode, .iterationCount, .name, .playState, .timing]

/-- `RESET_PROPERTIES` of `transition` (297-302) -/
def resetT : List TId := [.duration, .delay, .property, .timing]

/-- `entry(property_id).or_default().push(Default)` for every property (362-366) -/
def pushDefaults [DecidableEq P] (reset : List P) (o : Out P N E) : Out P N E :=
  reset.foldl (fun o p => o.put p (some ((o p).getD [] ++ [.default]))) o

/-- `output.entry(property_id).or_default()[index] = value` (369); `none` is the panic of an index out of
bounds. -/
def store [DecidableEq P] (i : Nat) (o : Out P N E) (e : P × Val N E) : Option (Out P N E) :=
  if i < ((o e.1).getD []).length then some (o.put e.1 (some (((o e.1).getD []).set i e.2))) else none

/-- The body of the loop over the animations of a shorthand (361-370) -/
def oneAnimation [DecidableEq P] (reset : List P) (i : Nat) (o : Out P N E) (a : List (P × Val N E)) :
    Option (Out P N E) :=
  a.foldlM (store i) (pushDefaults reset o)

/-- `for (index, animation) in animations.into_iter().enumerate()` (361-371), from a given index -/
def animationsFrom [DecidableEq P] (reset : List P) : Nat → Out P N E → List (List (P × Val N E)) →
    Option (Out P N E)
  | _, o, [] => some o
  | i, o, a :: as => (oneAnimation reset i o a).bind fun o => animationsFrom reset (i + 1) o as

/-- `output.remove(property_id)` for every property of the shorthand (346-348) -/
def removeAll [DecidableEq P] (reset : List P) (o : Out P N E) : Out P N E :=
  reset.foldl (fun o p => o.put p none) o

/-- One property of the list (343-387) -/
def stepDecl [DecidableEq P] (reset : List P) (o : Out P N E) : Decl P N E → Option (Out P N E)
  | .shorthand none => some (removeAll reset o)
  | .shorthand (some as) => animationsFrom reset 0 (removeAll reset o) as
  | .single _ none => some o
  | .single p (some vs) => some (o.put p (some vs))

/-- `resolve_to_output` (337-388) for all the rulesets in cascade order (style_sheet.rs 239-243) -/
def resolveToOutput [DecidableEq P] (reset : List P) (ds : List (Decl P N E)) : Option (Out P N E) :=
  ds.foldlM (stepDecl reset) (fun _ => none)

/-- `get_property_index` (436-441, 504-509) -/
def propertyIndex (o : Out P N E) (p : P) (i : Nat) : Option (Val N E) :=
  (o p).bind fun vs => vs[i]? <|> vs.getLast?

/-- `names` (443-448, 511-516): every entry that is a name, with its index; from a given index. -/
def namesFrom : Nat → List (Val N E) → List (Nat × N)
  | _, [] => []
  | i, v :: vs => (v.asName.toList.map fun n => (i, n)) ++ namesFrom (i + 1) vs

/-- `AnimationConfiguration` (393-400) -/
structure AConfig (N E : Type) where
  name : N
  timing : E
  options : Options

/-- `AnimationConfiguration::new` (403-409) with `AnimationOptions::DEFAULT` (animation.rs 137-147); `e0` is
`EasingFunction::default()`. -/
def AConfig.new (e0 : E) (n : N) : AConfig N E :=
  ⟨n, e0, { delay := 0, duration := 0, direction := .normal, count := some 1, fill := .none, paused := false }⟩

/-- The assignments of the closure of `names.map` (453-492): each `if let Some(x) = .. { field = x }`. -/
def AConfig.assign (c : AConfig N E) (duration delay : Option Nat) (direction : Option Direction)
    (fill : Option Fill) (count : Option (Option Nat)) (paused : Option Bool) (timing : Option E) :
    AConfig N E :=
  let c := match duration with | some d => { c with options.duration := d } | none => c
  let c := match delay with | some d => { c with options.delay := d } | none => c
  let c := match direction with | some d => { c with options.direction := d } | none => c
  let c := match fill with | some d => { c with options.fill := d } | none => c
  let c := match count with | some d => { c with options.count := d } | none => c
  let c := match paused with | some d => { c with options.paused := d } | none => c
  match timing with | some d => { c with timing := d } | none => c

/-- The closure of `names.map` (451-495) -/
def aconfig (e0 : E) (o : Out AId N E) (x : Nat × N) : AConfig N E :=
  (AConfig.new e0 x.2).assign
    ((propertyIndex o .duration x.1).bind Val.asDuration)
    ((propertyIndex o .delay x.1).bind Val.asDuration)
    ((propertyIndex o .direction x.1).bind Val.asDirection)
    ((propertyIndex o .fillMode x.1).bind Val.asFillMode)
    ((propertyIndex o .iterationCount x.1).bind Val.asIterationCount)
    ((propertyIndex o .playState x.1).bind Val.asPlayState)
    ((propertyIndex o .timing x.1).bind Val.asTiming)

/-- `from_properties_to_animation_configuration` (431-497) -/
def animationConfigs (e0 : E) (o : Out AId N E) : List (AConfig N E) :=
  (namesFrom 0 ((o .name).getD [])).map (aconfig e0 o)

/-- `TransitionOptions` (transition.rs 11-19), with its defaults zero, zero and `EasingFunction::default()` -/
structure TOptions (E : Type) where
  delay : Nat
  duration : Nat
  timing : E

/-- The closure of `names.map` (519-543), giving a `TransitionConfiguration` -/
def tconfig (e0 : E) (o : Out TId N E) (x : Nat × N) : N × TOptions E :=
  let c : TOptions E := ⟨0, 0, e0⟩
  let c := match (propertyIndex o .duration x.1).bind Val.asDuration with
    | some d => { c with duration := d } | none => c
  let c := match (propertyIndex o .delay x.1).bind Val.asDuration with
    | some d => { c with delay := d } | none => c
  let c := match (propertyIndex o .timing x.1).bind Val.asTiming with
    | some d => { c with timing := d } | none => c
  (x.2, c)

/-- `from_properties_to_transition_configuration` (500-545) -/
def transitionConfigs (e0 : E) (o : Out TId N E) : List (N × TOptions E) :=
  (namesFrom 0 ((o .property).getD [])).map (tconfig e0 o)

/-- `CssPropertyRegistry::resolve` as `resolve_transition_options` uses it (style_sheet.rs 251-268): a
property, the properties of a shorthand, or an error. -/
inductive Resolved (I : Type) where
  | property (i : I)
  | shorthand (is : List I)
  | error

/-- The pairs of one configuration (style_sheet.rs 248-268) -/
def pairsOf (resolve : N → Resolved I) (c : N × TOptions E) : List (I × TOptions E) :=
  match resolve c.1 with
  | .property i => [(i, c.2)]
  | .shorthand is => is.map fun i => (i, c.2)
  | .error => []

/-- `.collect()` into a map (style_sheet.rs 270): a later pair replaces an earlier one. -/
def collectMap [DecidableEq I] (ps : List (I × TOptions E)) : I → Option (TOptions E) :=
  ps.foldl (fun m p j => if j = p.1 then some p.2 else m j) (fun _ => none)

/-- `resolve_transition_options` (style_sheet.rs 230-271), after `resolve_to_output` -/
def transitionOptions [DecidableEq I] (e0 : E) (resolve : N → Resolved I) (o : Out TId N E) :
    I → Option (TOptions E) :=
  collectMap ((transitionConfigs e0 o).flatMap (pairsOf resolve))

end Flair.AnimProps
