import Verif.Model.Matcher
import Verif.Model.Page
import Verif.Model.MediaChange
import Verif.Model.Inherit
/-!
# A running application: from changes of the elements to computed values

The systems of crates/bevy_flair_style/src/systems.rs in the order of lib.rs:355-445, for a fixed hierarchy: the marking of
nodes (`calculate_effective_style_sheet`, `mark_as_changed_on_style_sheet_change`, the two systems for media features,
`mark_changed_nodes_for_recalculation`), `calculate_style_and_set_vars`, `set_property_values`, `compute_property_values`
and `apply_computed_properties`.  The parts are the functions of `Invalidation`, `Sheet`, `Vars` and `Inherit`; this file
puts them together.
-/
namespace Flair.Live
open Flair.Tree Flair.Selector Flair.Nesting Flair.Sheet Flair.Vars Flair.Values Flair.Media Flair.Page Flair.Matcher
  Flair.Invalidation
variable {E C N T V X Y : Type} [DecidableEq E] [DecidableEq N] [DecidableEq V]

/-- The state.  `sheet`: the asset of `effective_style_sheet_asset_id`, `none` while it is not loaded; `flags` and `media`:
`NodeStyleSelectorFlags` (components.rs:236-240); `marker`: `NodeStyleMarker`; `active`: `NodeStyleActiveRules`; `vars`:
`NodeVars`; `nodes`: `NodeProperties`. -/
structure Live (E C N T V X Y : Type) where
  world : SWorld E
  window : E → Provider
  sheet : E → Option (StyleSheet Compiled Media.Selector C N T V X Y)
  inline : E → Option (Ruleset (RProp C N T V) N T X Y)
  flags : FlagMap E
  media : E → MediaChange.Flags
  marker : E → Bool
  active : E → List Nat
  vars : E → N → Option (VarTokens N T)
  nodes : Inherit.World E Nat V

/-- What a frame brings: the new data, windows, sheets and inline styles; what change detection reports about them; the
nodes whose sheet was modified, and those whose effective sheet is another one; other nodes that are marked
(`set_needs_style_recalculation` is public); the order of the parallel loop; what `Inherit` leaves open. -/
structure Input (E C N T V X Y : Type) where
  data : E → NodeData
  window : E → Provider
  sheet : E → Option (StyleSheet Compiled Media.Selector C N T V X Y)
  inline : E → Option (Ruleset (RProp C N T V) N T X Y)
  change : E → Change
  mediaChange : E → MediaChange.Flags
  modified : E → Bool
  swapped : E → Bool
  mark : E → Bool
  order : List E
  oracle : Inherit.Oracle E Nat

/-- The program that matches the selectors of a sheet -/
def progOf (w : SWorld E) (sh : StyleSheet Compiled Media.Selector C N T V X Y) : Prog NodeData (List (Option Bool)) :=
  matchProg (w.forest.nodes.length + 1) (sh.selectors.map fun s => s.1.selector.sel)

/-- The ids of the rulesets one of whose selectors matches, the media conditions holding
(`get_matching_ruleset_ids_for_element`, style_sheet.rs:294-309) -/
def idsOf (sh : StyleSheet Compiled Media.Selector C N T V X Y) (p : Provider) (res : List (Option Bool)) : List Nat :=
  (sh.selectors.zip res).filterMap fun s => if s.2 = some true ∧ allMatch p s.1.1.media = true then some s.1.2 else none

/-- The flags the provider sets while conditions are tested (systems.rs:715-752): up to the first that fails -/
def mediaRead (p : Provider) : List Media.Selector → MediaChange.Flags
  | [] => ⟨false, false⟩
  | m :: ms => if (m.matches p).getD false then (MediaChange.flagOf m).union (mediaRead p ms) else MediaChange.flagOf m

/-- Those of all the selectors that match (style_sheet.rs:303: the media conditions are tested after the selector) -/
def mediaFlags (sh : StyleSheet Compiled Media.Selector C N T V X Y) (p : Provider) (res : List (Option Bool)) :
    MediaChange.Flags :=
  (sh.selectors.zip res).foldl (fun f s => if s.2 = some true then f.union (mediaRead p s.1.1.media) else f) ⟨false, false⟩

/-- `NodeProperties::reset` (components.rs:934-953), the fields that are modelled -/
def resetNode : Inherit.Node Nat V := ⟨none, none, fun _ => none, none, false⟩

/-- The first systems of a frame: flags reset and variables and properties cleared for modified sheets (systems.rs:543-612),
flags reset for another effective sheet (132-199), markers set, also for media features (389-443). -/
def begin [DecidableEq E] (i : Input E C N T V X Y) (st : Live E C N T V X Y) : Live E C N T V X Y :=
  { st with
    world := { st.world with data := i.data }
    window := i.window
    sheet := i.sheet
    inline := i.inline
    flags := fun x => if i.modified x || i.swapped x then Flags.empty else st.flags x
    media := fun x => if i.modified x || i.swapped x then ⟨false, false⟩ else st.media x
    marker := fun x => st.marker x || i.modified x || i.swapped x || i.mark x ||
      ((i.mediaChange x).info && (st.media x).info) || ((i.mediaChange x).window && (st.media x).window)
    vars := fun x => if i.modified x then fun _ => none else st.vars x
    nodes := fun x => if i.modified x then (st.nodes x).map fun _ => resetNode else st.nodes x }

/-- `mark_changed_nodes_for_recalculation` (systems.rs:486-540) -/
def notice (i : Input E C N T V X Y) (st : Live E C N T V X Y) : Live E C N T V X Y :=
  { st with
    marker := (Invalidation.markChanged st.world i.change
      (⟨st.flags, st.marker, fun _ => none⟩ : Invalidation.St E (List Nat))).marker }

/-- The nodes the loops work on (systems.rs:784-798, 858-868) -/
def due (st : Live E C N T V X Y) (e : E) : Bool := decide (e ∈ st.world.styled) && st.marker e && (st.sheet e).isSome

/-- What the selectors of the sheet of a node say.  (The outcome does not depend on the flags.) -/
def matched (st : Live E C N T V X Y) (sh : StyleSheet Compiled Media.Selector C N T V X Y) (e : E) : List (Option Bool) :=
  (run st.world (progOf st.world sh) [e] st.flags).1

/-- The variables a node defines (systems.rs:815); a panic is excluded in `C95`. -/
def ownVars (sh : StyleSheet Compiled Media.Selector C N T V X Y) (ids : List Nat)
    (inline : Option (Ruleset (RProp C N T V) N T X Y)) : N → Option (VarTokens N T) :=
  ((sh.getVars ids inline).map fun m n => m.get? n).getD fun _ => none

/-- The node of the loop gets new rules and variables (systems.rs:812-825). -/
def fresh (st : Live E C N T V X Y) (e : E) : Option (List Nat × MediaChange.Flags × (N → Option (VarTokens N T))) :=
  if due st e then
    (st.sheet e).map fun sh =>
      (idsOf sh (st.window e) (matched st sh e), mediaFlags sh (st.window e) (matched st sh e),
        ownVars sh (idsOf sh (st.window e) (matched st sh e)) (st.inline e))
  else none

open Classical in
/-- `calculate_style_and_set_vars` (systems.rs:755-836): rules and variables, and marks for the descendants of the nodes
whose variables changed.  The flags are inserted in the order of the loop; the rest is per node. -/
noncomputable def calculate (i : Input E C N T V X Y) (st : Live E C N T V X Y) : Live E C N T V X Y :=
  { st with
    flags := i.order.foldl (fun fl e => match due st e, st.sheet e with
      | true, some sh => (run st.world (progOf st.world sh) [e] fl).2
      | _, _ => fl) st.flags
    media := fun e => match fresh st e with
      | some (_, m, _) => (st.media e).union m
      | none => st.media e
    active := fun e => match fresh st e with
      | some (ids, _, _) => ids
      | none => st.active e
    vars := fun e => match fresh st e with
      | some (_, _, v) => v
      | none => st.vars e
    marker := fun e => st.marker e || (decide (e ∈ st.world.styled) &&
      ((st.world.forest.nodes.filter fun x => match fresh st x with
        | some (_, _, v) => decide (v ≠ st.vars x)
        | none => false).flatMap (Invalidation.descendants st.world.forest)).contains e) }

/-- `resolver_for_entity` (systems.rs:641-650) -/
def env (st : Live E C N T V X Y) (e : E) (n : N) : Option (VarTokens N T) :=
  getVarTokens (fun x => if x ∈ st.world.styled then some (st.vars x) else none) (e :: ancestors st.world.forest e) n

/-- The values `set_property_values` gives a node (systems.rs:858-902); a panic is excluded in `C95`. -/
def newValues (names : C → Option Nat) (unset : Nat → PropertyValue V) (st : Live E C N T V X Y) (e : E) :
    Option (Nat → PropertyValue V) :=
  if due st e then
    (st.sheet e).map fun sh => (sh.getPropertyValues names (env st e) (st.active e) (st.inline e) unset).getD unset
  else none

open Classical in
/-- `set_property_values` and the systems after it (systems.rs:838-914, 1013-1083): new values, markers cleared, computed
values. -/
noncomputable def settle [DecidableEq (Nat → ComputedValue V)] (names : C → Option Nat) (s : Inherit.Static Nat V)
    (roots : List E) (i : Input E C N T V X Y) (st : Live E C N T V X Y) : Live E C N T V X Y :=
  { st with
    marker := fun e => st.marker e && !due st e
    nodes := Inherit.frame s i.oracle st.world.forest roots (newValues names s.unset st)
      (decide (∃ e, (newValues names s.unset st e).isSome)) st.nodes }

/-- One frame -/
noncomputable def frame [DecidableEq (Nat → ComputedValue V)] (names : C → Option Nat) (s : Inherit.Static Nat V)
    (roots : List E) (st : Live E C N T V X Y) (i : Input E C N T V X Y) : Live E C N T V X Y :=
  settle names s roots i (calculate i (notice i (begin i st)))

end Flair.Live
