import Verif.Model.Schedule
import Verif.Tactics
/-!
# What a frame should do in any schedule
-/
namespace Flair.Spec
open Flair.Schedule
variable {T : Ty}

/-- An order Bevy may run the systems in: each once, and none before another that has to run first -/
structure IsSchedule (order : List Sys) : Prop where
  nodup : order.Nodup
  all : ∀ s, s ∈ order
  respects : order.Pairwise fun s t => before t s = false

/-- No node gets new values of `Interaction` and of `Pressed` or `Hovered` in the same frame. -/
def OneSource (c : Code T) (app : T.App) : Prop :=
  ∀ e, c.interactionNow app e ≠ none → c.pressedNow app e = none ∧ c.hoveredNow app e = none

/-- A node without transitions and animations has none to be ticked. -/
def NothingToTick (c : Code T) : Prop := c.tickable c.noAnim = false

/-- The same world, but for the flag `any_animation_active` of the private resource `GlobalChangeDetection` -/
def SameWorld (w w' : W T) : Prop := { w with anyActive := false } = { w' with anyActive := false }

/-- A frame of a history: what the application has done to the world before it (it cannot see the private flag), and its part
of the world -/
structure Step (T : Ty) where
  edit : W T → W T
  blind : ∀ w w', SameWorld w w' → SameWorld (edit w) (edit w')
  app : T.App

/-- A history of frames, each run in its own order -/
noncomputable def frames (c : Code T) : List (Step T × List Sys) → W T → W T
  | [], w => w
  | (s, order) :: rest, w => frames c rest (frame c s.app order (s.edit w))

end Flair.Spec
