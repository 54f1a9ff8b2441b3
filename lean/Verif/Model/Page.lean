import Verif.Model.Nesting
import Verif.Model.Sheet
import Verif.Model.Media
import Verif.Model.Vars
/-!
# One style recalculation of all nodes

`calculate_style_and_set_vars` and `set_property_values` (crates/bevy_flair_style/src/systems.rs:755-914), for nodes that
are all marked for recalculation and whose sheets are all loaded.  Which nodes are marked is the subject of
`Model/Invalidation.lean` and others.
-/
namespace Flair.Page
open Flair.Tree Flair.Selector Flair.Nesting Flair.Sheet Flair.Vars Flair.Values Flair.Media
variable {E C N T V X Y : Type} [DecidableEq E] [DecidableEq N] [DecidableEq V]

/-- What the systems read: the elements, the media features and the sheet in effect of each node
(`effective_style_sheet_asset_id`), and its `RawInlineStyle`. -/
structure Page (E C N T V X Y : Type) where
  world : SWorld E
  window : E → Provider
  sheet : E → StyleSheet Compiled Media.Selector C N T V X Y
  inline : E → Option (Ruleset (RProp C N T V) N T X Y)

/-- The test of `get_matching_ruleset_ids_for_element` (style_sheet.rs:294-309); that the matcher does not panic is part
of `C95`. -/
def Page.accepts (p : Page E C N T V X Y) (e : E) (s : CssSelector Compiled Media.Selector) : Bool :=
  decide (matchesSelector p.world s.selector.sel e = some true) && allMatch (p.window e) s.media

/-- `NodeStyleActiveRules::active_rules` (systems.rs:812-813) -/
def Page.rules (p : Page E C N T V X Y) (e : E) : List Nat := (p.sheet e).matchingIds (p.accepts e)

/-- `NodeVars` after `calculate_style_and_set_vars` (systems.rs:815-817); entities without style data have none.
`none` also stands for a panic (C95: there is none). -/
def Page.vars (p : Page E C N T V X Y) (e : E) : Option (N → Option (VarTokens N T)) :=
  if e ∈ p.world.styled then ((p.sheet e).getVars (p.rules e) (p.inline e)).map fun m n => m.get? n else none

/-- `resolver_for_entity` (systems.rs:641-650) -/
def Page.env (p : Page E C N T V X Y) (e : E) (n : N) : Option (VarTokens N T) :=
  getVarTokens p.vars (e :: ancestors p.world.forest e) n

/-- The property values of `set_property_values` (systems.rs:881-888); `unset`: `create_unset_values_map`
(bevy_flair_core/src/registry.rs:239-243) -/
def Page.values (p : Page E C N T V X Y) (names : C → Option Nat) (unset : Nat → PropertyValue V) (e : E) :
    Option (Nat → PropertyValue V) :=
  (p.sheet e).getPropertyValues names (p.env e) (p.rules e) (p.inline e) unset

end Flair.Page
