import Verif.Model.Pointer
/-! # What `:hover`, `:active` and the type of an element should be -/
namespace Flair.Spec
open Flair.StyleData Flair.Pointer

/-- The components and the state after a pass of the three systems in the order `order`.  The node gets its style data
when it has none of the components yet; before each pass there are edits, each such that `ok`. -/
inductive PointerRun (order : List Sys) (ok : PEdit → Prop) : Comps → PointerState → Prop
  | styled (edits : List PEdit) : (∀ e ∈ edits, ok e) →
      PointerRun order ok (edits.foldl Comps.edit ⟨.quiet none, .quiet none, .quiet none⟩)
        (pass order (edits.foldl Comps.edit ⟨.quiet none, .quiet none, .quiet none⟩) {})
  | frame {c s} (edits : List PEdit) : PointerRun order ok c s → (∀ e ∈ edits, ok e) →
      PointerRun order ok (edits.foldl Comps.edit c.calm) (pass order (edits.foldl Comps.edit c.calm) s)

/-- All three systems run, each once. -/
def AllSystems (order : List Sys) : Prop := order.Perm [.pressed, .hovered, .interaction]

/-- The pointer is over the node. -/
def PointerOver (c : Comps) : Prop :=
  c.hovered.value = some true ∨ c.interaction.value = some .hovered ∨ c.interaction.value = some .pressed

/-- The node is being pressed. -/
def PointerPress (c : Comps) : Prop := c.pressed.value = some () ∨ c.interaction.value = some .pressed

/-- Anything may happen. -/
def AnyPointerEdit (_ : PEdit) : Prop := True

/-- `Interaction` is not used, and `Hovered` is not removed. -/
def MarkersOnly : PEdit → Prop
  | .interaction _ => False
  | .hovered .remove => False
  | _ => True

/-- Only `Interaction` is used, and not removed. -/
def InteractionOnly : PEdit → Prop
  | .interaction (.set _) => True
  | _ => False

/-- The name inserted last (`none`: none, or it was removed after that). -/
def lastName : List TEdit → Option String
  | [] => none
  | .style :: es => lastName es
  | .unname :: es => lastName es
  | .name n :: es => (lastName es).or (some n)

/-- The type name is inserted once, when the node has its style data. -/
inductive NamedOnce : List TEdit → Prop
  | mk (l1 l2 : List TEdit) (n : String) : .style ∈ l1 → (∀ m, .name m ∉ l1) → (∀ m, .name m ∉ l2) →
      NamedOnce (l1 ++ .name n :: l2)

end Flair.Spec
