import Verif.Model.StyleData
/-!
# Model of the systems that tell which nodes are hovered and pressed, and of the type name of a node

`systems.rs` (340-381), `lib.rs` (397-413), `components.rs` (1261-1289).
-/
namespace Flair.Pointer
open Flair.StyleData

/-- `Interaction` of bevy_ui -/
inductive Interaction where
  | none | hovered | pressed
deriving DecidableEq

/-- The two fields of `NodePseudoState` (lib.rs:58-73) -/
structure PointerState where
  pressed : Bool := false
  hovered : Bool := false
deriving DecidableEq

/-- The components of one node that tell about the pointer, with what change detection reports (`StyleData.Comp`):
`Interaction`, `Hovered`, and the marker `Pressed` -/
structure Comps where
  interaction : Comp Interaction
  hovered : Comp Bool
  pressed : Comp Unit

/-- `sync_hovered_system` (systems.rs:364-371) -/
def syncHovered (c : Comps) (s : PointerState) : PointerState :=
  match c.hovered.value with
  | some h => if c.hovered.changed then { s with hovered := h } else s
  | none => s

/-- `sync_interaction_system` (systems.rs:373-381) -/
def syncInteraction (c : Comps) (s : PointerState) : PointerState :=
  match c.interaction.value with
  | some i => if c.interaction.changed then { pressed := i == .pressed, hovered := i == .hovered } else s
  | none => s

/-- `sync_marker_component_system::<Pressed>` (systems.rs:340-362, lib.rs:404) -/
def syncPressed (c : Comps) (s : PointerState) : PointerState := { s with pressed := syncMarker c.pressed s.pressed }

/-- The three systems -/
inductive Sys where
  | pressed | hovered | interaction
deriving DecidableEq

/-- One of them -/
def Sys.run (c : Comps) (s : PointerState) : Sys → PointerState
  | .pressed => syncPressed c s
  | .hovered => syncHovered c s
  | .interaction => syncInteraction c s

/-- A pass: the systems run one after the other, in the order the scheduler has chosen (lib.rs:400-413 does not say). -/
def pass (order : List Sys) (c : Comps) (s : PointerState) : PointerState := order.foldl (Sys.run c) s

/-- What the application does to the components -/
inductive PEdit where
  | interaction (e : Edit Interaction)
  | hovered (e : Edit Bool)
  | pressed (e : Edit Unit)

/-- One edit -/
def Comps.edit (c : Comps) : PEdit → Comps
  | .interaction e => { c with interaction := c.interaction.edit e }
  | .hovered e => { c with hovered := c.hovered.edit e }
  | .pressed e => { c with pressed := c.pressed.edit e }

/-- The components when nothing was reported since the last pass -/
def Comps.calm (c : Comps) : Comps := ⟨.quiet c.interaction.value, .quiet c.hovered.value, .quiet c.pressed.value⟩

/-! ## Type names -/

/-- A node: its `TypeName`, and, if it has `NodeStyleData`, the `type_name` there -/
structure Typed where
  component : Option String := none
  data : Option (Option String) := none

/-- What the application does to a node -/
inductive TEdit where
  /-- `NodeStyleData` is inserted (a `Node` is) -/
  | style
  /-- `TypeName` is inserted; in the same command as the style data or later it finds them -/
  | name (n : String)
  /-- `TypeName` is removed -/
  | unname
deriving DecidableEq

/-- One step; `none`: a panic.  `on_insert_type_name` (components.rs:1274-1289). -/
def Typed.step (t : Typed) : TEdit → Option Typed
  | .style => some { t with data := some (t.data.getD none) }
  | .unname => some { t with component := none }
  | .name n =>
    match t.data with
    | none => some { t with component := some n }
    | some (some _) => none
    | some none => some ⟨some n, some (some n)⟩

/-- A history -/
def Typed.run (t : Typed) : List TEdit → Option Typed
  | [] => some t
  | e :: es => (t.step e).bind fun t => t.run es

end Flair.Pointer
