import Verif.Model.Invalidation
import Verif.Model.Vars
/-!
# Model of how changed variables reach the nodes that use them

`systems.rs` (`calculate_style_and_set_vars`, `set_property_values`, `resolve_animations`,
`mark_as_changed_on_style_sheet_change`, `calculate_is_root`).

`E`: entities; `M`: the maps of `NodeVars`, read with `get`, `M` having the empty map `clear`; `N`: names, `T`: tokens of a
variable; `V`: the values set from the declarations; `A`: the animation configurations; `K`: resolved keyframes.
-/
namespace Flair.VarsChange
open Flair.Tree Flair.Vars
variable {E M N T V A K : Type}

/-- What the active rules and the inline style of a node define: its variables (`get_vars`, systems.rs:808), and, given a
resolver of variables, the property values (`get_property_values`, 880-886), the animations (`resolve_animation_configs`,
897-898) and, for the animations, the keyframes (`KeyframesResolver::resolve`, 966-975). -/
structure Rules (M N T V A K : Type) where
  own : M
  decl : (N → Option T) → V
  anim : (N → Option T) → A
  keys : A → (N → Option T) → K

/-- The state: the hierarchy; which entities have the components of a node; the rules that apply to each node;
`NodeVars`; `needs_style_recalculation`; the property values set last; `current_animation_configs`; the keyframes of the
animations that run. -/
structure St (E M N T V A K : Type) where
  forest : Forest E
  styled : E → Bool
  rules : E → Rules M N T V A K
  vars : E → M
  marker : E → Bool
  values : E → Option V
  configs : E → A
  keys : E → Option K

/-- The maps of names and the empty one (`NodeVars`, components.rs:391); the empty list of animations -/
structure Maps (M N T A : Type) where
  get : M → N → Option T
  clear : M
  noAnim : A

/-- `resolver_for_entity` and `get_var_tokens` (systems.rs:640-651). -/
def resolver (m : Maps M N T A) (st : St E M N T V A K) (e : E) : N → Option T :=
  getVarTokens (fun x => if st.styled x then some (m.get (st.vars x)) else none) (e :: ancestors st.forest e)

/-- The nodes the loop of `calculate_style_and_set_vars` works on (systems.rs:784-798). -/
def calculated (loaded : E → Bool) (st : St E M N T V A K) (e : E) : Bool := st.styled e && st.marker e && loaded e

/-- `vars.replace_vars(new_vars)` gives `true` (systems.rs:810, components.rs:394-405). -/
def replaced [DecidableEq M] (loaded : E → Bool) (st : St E M N T V A K) (e : E) : Bool :=
  calculated loaded st e && decide ((st.rules e).own ≠ st.vars e)

/-- `calculate_style_and_set_vars` (systems.rs:755-836): the loop, and the marks for the descendants of the nodes whose
variables changed.  (Only entities of the hierarchy have descendants; `nodes` lists them.) -/
def calculate [DecidableEq E] [DecidableEq M] (loaded : E → Bool) (st : St E M N T V A K) : St E M N T V A K :=
  let toMark := (st.forest.nodes.filter (replaced loaded st)).flatMap (Invalidation.descendants st.forest)
  { st with
    vars := fun e => if replaced loaded st e then (st.rules e).own else st.vars e
    marker := fun e => st.marker e || (st.styled e && toMark.contains e) }

/-- `set_property_values` (systems.rs:840-917) with `resolve_animations` (946-990), which happens in the same frame: the
keyframes are resolved only when the configurations changed. -/
def setValues [DecidableEq A] (m : Maps M N T A) (loaded : E → Bool) (st : St E M N T V A K) : St E M N T V A K :=
  { st with
    values := fun e => if calculated loaded st e then some ((st.rules e).decl (resolver m st e)) else st.values e
    configs := fun e => if calculated loaded st e then (st.rules e).anim (resolver m st e) else st.configs e
    keys := fun e =>
      if calculated loaded st e && decide ((st.rules e).anim (resolver m st e) ≠ st.configs e)
      then some ((st.rules e).keys ((st.rules e).anim (resolver m st e)) (resolver m st e)) else st.keys e
    marker := fun e => st.marker e && !calculated loaded st e }

/-- One frame -/
def frame [DecidableEq E] [DecidableEq M] [DecidableEq A] (m : Maps M N T A) (loaded : E → Bool) (st : St E M N T V A K) :
    St E M N T V A K := setValues m loaded (calculate loaded st)

/-- What happens between frames: the rules that apply to a node change (which marks it, C43); a sheet is modified
(`mark_as_changed_on_style_sheet_change`, systems.rs:543-612: for the nodes it is the effective sheet of, the variables
are cleared, the values and animations reset, the marker set); the hierarchy changes (entities that get another parent or
are new have their marker set: `calculate_is_root`, 238-262, writes their `NodeStyleData`). -/
inductive Event (E M N T V A K : Type) where
  | rules (e : E) (r : Rules M N T V A K)
  | modified (sheet : E → Bool) (r : E → Rules M N T V A K)
  | tree (f : Forest E) (moved : E → Bool)
  | frame (loaded : E → Bool)

/-- The effect of an event -/
def apply [DecidableEq E] [DecidableEq M] [DecidableEq A] (m : Maps M N T A) (st : St E M N T V A K) :
    Event E M N T V A K → St E M N T V A K
  | .rules e r => { st with
      rules := fun x => if x = e then r else st.rules x
      marker := fun x => if x = e then true else st.marker x }
  | .modified s r => { st with
      rules := fun x => if s x then r x else st.rules x
      vars := fun x => if s x then m.clear else st.vars x
      values := fun x => if s x then none else st.values x
      configs := fun x => if s x then m.noAnim else st.configs x
      keys := fun x => if s x then none else st.keys x
      marker := fun x => if s x then true else st.marker x }
  | .tree f moved => { st with
      forest := f
      marker := fun x => if moved x then true else st.marker x }
  | .frame loaded => frame m loaded st

/-- A history -/
def run [DecidableEq E] [DecidableEq M] [DecidableEq A] (m : Maps M N T A) :
    St E M N T V A K → List (Event E M N T V A K) → St E M N T V A K
  | st, [] => st
  | st, e :: es => run m (apply m st e) es

/-- The beginning: nothing was calculated. -/
def start (m : Maps M N T A) (f : Forest E) (styled : E → Bool) (rules : E → Rules M N T V A K) : St E M N T V A K where
  forest := f
  styled := styled
  rules := rules
  vars _ := m.clear
  marker _ := true
  values _ := none
  configs _ := m.noAnim
  keys _ := none

end Flair.VarsChange
