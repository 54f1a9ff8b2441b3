import Verif.Spec.Media
import Verif.Model.MediaChange
/-!
# Specification: which rules the media conditions let through
-/
namespace Flair.Spec
open Flair.Media Flair.MediaChange

variable {E C W I : Type}

/-- The condition holds for a node that renders to the window with this color scheme (if there is one and it has one) and
to a target of this size and scale (if it is known).  Sizes are cut to whole pixels; the aspect ratio is that of the
uncut sizes, infinite for height 0. -/
def HoldsFor (scheme : Option Scheme) (info : Option Info) : Selector → Prop
  | .colorScheme s => scheme = some s
  | .viewportWidth r => ∃ i, info = some i ∧ InBounds r (⌊i.x⌋.toNat)
  | .viewportHeight r => ∃ i, info = some i ∧ InBounds r (⌊i.y⌋.toNat)
  | .resolution r => ∃ i, info = some i ∧ InBounds r i.scale
  | .aspectRatio r => ∃ i, info = some i ∧
      ((i.y ≠ 0 ∧ InBounds r (i.x / i.y)) ∨ (i.y = 0 ∧ i.x ≠ 0 ∧ ∃ a, r = .greaterOrEqual a))

/-- The color scheme of the window the node renders to. -/
inductive SchemeOf (st : St E C W I) (e : E) : Option Scheme → Prop
  | window {c w} : st.camera e = some (some c) → st.target c = some w → SchemeOf st e (st.theme w)
  | none : (∀ c w, ¬ (st.camera e = some (some c) ∧ st.target c = some w)) → SchemeOf st e none

/-- The active rules of the node are those of the matching ones all of whose conditions hold now, in their order. -/
def UpToDate (st : St E C W I) (e : E) : Prop :=
  ∃ s, SchemeOf st e s ∧ ∃ keep : List Selector × I → Bool,
    (∀ r, keep r = true ↔ ∀ m ∈ r.1, HoldsFor s (st.info e) m) ∧ st.active e = ((st.rules e).filter keep).map (·.2)

/-- Cameras stay where they are. -/
def CamerasStay : Event E C W I → Prop
  | .camera _ _ => False
  | .target _ _ => False
  | _ => True

end Flair.Spec
