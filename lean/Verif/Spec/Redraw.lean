import Verif.Spec.NodeProps
import Verif.Spec.Animation
import Verif.Model.Redraw
/-! # Specification of redraw requests -/
namespace Flair.Spec
open Flair.Transition Flair.Animation Flair.NodeProps
variable {V : Type} {n : Nat}

/-- Something moves on the node: a transition that waits or runs, or an animation that is not paused and waits, runs or
has just come to its end. -/
def Moving (s : NP n V) : Prop :=
  (∃ p t, s.transitions p = some t ∧ (t.state = .pending ∨ t.state = .running)) ∨
  (∃ g ∈ s.animations, ∃ x ∈ g.2, x.2.1.paused = false ∧
    (x.2.1.state = .pending ∨ x.2.1.state = .running ∨ x.2.1.state = .justFinished))

/-- A frame in which nothing happens to the node, except that time passes. -/
structure Quiet (i : Input n V) (s : NP n V) : Prop where
  reset : i.reset = false
  topts : i.topts = none
  configs : i.configs = none
  pend : i.pend = s.computed
  resolved : i.resolved = s.computed

/-- Any number of such frames, with the times that pass in them and the number of events of the node. -/
inductive QuietFrames [DecidableEq V] (env : Env n V) (s : NP n V) (shown : Shown n V) :
    List Nat → Nat → NP n V → Shown n V → Prop
  | refl : QuietFrames env s shown [] 0 s shown
  | frame {ds k s₁ shown₁ s₂ shown₂ te ae m'} (fuel i) : QuietFrames env s shown ds k s₁ shown₁ → Quiet i s₁ →
      beforeApply fuel env i s₁ = some m' → SkipOk env i m' →
      NodeProps.frame fuel env i s₁ shown₁ = some (s₂, shown₂, te, ae) →
      QuietFrames env s shown (ds ++ [i.delta]) (k + te.length + ae.length) s₂ shown₂

/-- The transitions of the node end within the time `T`. -/
def TransitionsWithin (s : NP n V) (T : Nat) : Prop :=
  ∀ p t, s.transitions p = some t → (t.state = .pending ∨ t.state = .running) → t.total ≤ t.elapsed + T

/-- All animations of the node run together: they are new ones with the options `o` after the same ticks `ds₀`. -/
def OneTimeline (o : Animation.Options) (ds₀ : List Nat) (s : NP n V) : Prop :=
  ∃ a, Runs (Animation.new o) ds₀ a ∧ ∀ g ∈ s.animations, ∀ x ∈ g.2, x.2.1 = a

end Flair.Spec
