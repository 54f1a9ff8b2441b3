import Verif.Model.Debug
/-! # When debug assertions are expected to hold -/
namespace Flair.Spec
open Flair.Debug Flair.Animation

/-- The lives of an animation: made from options, ticked, given new options, cancelled, any number of times. -/
inductive AnimLives : Anim → Prop
  | new (o : Options) : AnimLives (Animation.new o)
  | tick {a b} (d : Nat) : AnimLives a → a.Ticks d b → AnimLives b
  | update {a b} (o : Options) : AnimLives a → a.Updates o b → AnimLives b
  | cancel {a} : AnimLives a → AnimLives a.cancel

variable {N : Type}

/-- The nodes there are when the styles of a frame are computed, `alive` being those there were before it. -/
def inFrame (alive : N → Prop) (fr : Frame N) (n : N) : Prop :=
  fr.spawned n = true ∨ fr.spawnedMid n = true ∨ alive n ∧ fr.gone n = false

/-- The nodes there are after a frame. -/
def afterFrame (alive : N → Prop) (fr : Frame N) (n : N) : Prop := inFrame alive fr n ∨ fr.spawnedLate n = true

/-- The styles of some node are calculated in the frame. -/
def Calculates (alive : N → Prop) (fr : Frame N) : Prop := ∃ n, inFrame alive fr n ∧ fr.recalc n = true

/-- Every node is visited once, after its parent, which is a node too: the nodes are the trees below the roots. -/
structure VisitsAll (nodes : N → Prop) (vs : List (Option N × N)) : Prop where
  once : (vs.map (·.2)).Nodup
  all : ∀ n, nodes n → n ∈ vs.map (·.2)
  parents : ∀ a b p n, vs = a ++ (some p, n) :: b → p ∈ a.map (·.2) ∧ nodes p

/-- If styles are calculated in the frame, then every node is below a root, and none is spawned between
`StyleSystems::Prepare` and the calculation. -/
def OrdinaryFrame (alive : N → Prop) (fr : Frame N) : Prop :=
  Calculates alive fr → (∀ n, fr.spawnedMid n = false) ∧ VisitsAll (inFrame alive fr) fr.visits

/-- Frames that are all ordinary -/
inductive Ordinary : (N → Prop) → List (Frame N) → Prop
  | nil (alive) : Ordinary alive []
  | cons {alive fr frs} : OrdinaryFrame alive fr → Ordinary (afterFrame alive fr) frs → Ordinary alive (fr :: frs)

/-- The nodes there are after some frames. -/
def afterFrames (alive : N → Prop) : List (Frame N) → N → Prop
  | [] => alive
  | fr :: frs => afterFrames (afterFrame alive fr) frs

end Flair.Spec
