import Verif.Model.Sharing
/-!
# The reference: every node is written in every frame
-/
namespace Flair.Spec
open Flair.NodeProps Flair.Sharing
variable {V : Type} {n : Nat}

/-- The newly computed values of a node with the given current ones. -/
def newValues (computed : Fin n → Option V) : Compute n V → Fin n → Option V
  | .idle => computed
  | .kept ws => ws.foldl (fun f w p => if p = w.1 then w.2 else f p) computed
  | .fresh vals => vals

/-- Whatever becomes of a placeholder is `done`, and such values stay as they are; no value stays no value. -/
structure Resolves (done : V → Prop) (ph : Fin n → Option V → Option V) : Prop where
  nothing : ∀ p, ph p none = none
  final : ∀ p v w, ph p v = some w → done w
  stays : ∀ p v, done v → ph p (some v) = some v

/-- The frames of a node, with its values and events: the program of `Model/NodeProps` with no node left out and no maps
compared, all of the values resolved and applied in each frame. -/
inductive Plain [DecidableEq V] (env : Env n V) : List (Nat × Happens n V) → Shown n V → NP n V → Shown n V →
    List (List (TEv × Fin n) × List (AEv × Nat × Fin n)) → Prop
  | start (shown) : Plain env [] shown empty shown []
  | frame {h shown₀ s shown evs s' shown' te ae m} (fuel : Nat) (i : Happens n V) : Plain env h shown₀ s shown evs →
      beforeCreate fuel (i.input (fun _ => none) (fun _ => none)) s = some m →
      NodeProps.frame fuel env (i.input (newValues m.computed i.compute) fun p => i.placeholder p (newValues m.computed i.compute p))
        s shown = some (s', shown', te, ae) →
      Plain env (h ++ [(fuel, i)]) shown₀ s' shown' (evs ++ [(te, ae)])

/-- The frames of a node as the code runs them. -/
inductive Marked [DecidableEq V] (env : Env n V) : List (Nat × Happens n V) → Shown n V → Node n V → Shown n V →
    List (List (TEv × Fin n) × List (AEv × Nat × Fin n)) → Prop
  | start (shown) : Marked env [] shown spawned shown []
  | frame {h shown₀ x shown evs x' shown' te ae} (fuel : Nat) (i : Happens n V) : Marked env h shown₀ x shown evs →
      Sharing.frame fuel env i x shown = some (x', shown', te, ae) →
      Marked env (h ++ [(fuel, i)]) shown₀ x' shown' (evs ++ [(te, ae)])

end Flair.Spec
