import Verif.Model.Transition
/-! # Specification of transitions -/
namespace Flair.Spec
open Flair.Transition
variable {V : Type}

/-- CSS transitions: the phase at time `T` after the transition was created (and ticked at least once). -/
def phaseAt (delay duration T : Nat) : TState :=
  if delay + duration ≤ T then .finished else if delay ≤ T then .running else .pending

/-- CSS transitions: the progress at time `T` of the running phase. -/
def progressAt (delay duration T : Nat) : ℚ := ((T : ℚ) - delay) / duration

/-- A timing function that maps progress to progress (no overshoot). -/
def EaseIn01 (ease : F32 → F32) : Prop :=
  ∀ q, 0 ≤ q → q ≤ 1 → ∃ r, ease (.num q) = .num r ∧ 0 ≤ r ∧ r ≤ 1

/-- CSS transitions: the value at time `T`; `e` is the timing function on progress. -/
def valueAt (interp : V → V → ℚ → V) (e : ℚ → ℚ) (src dst : V) (delay duration T : Nat) : V :=
  match phaseAt delay duration T with
  | .pending => src
  | .running => interp src dst (e (progressAt delay duration T))
  | _ => dst

/-- Linear interpolation of numbers. -/
def lerp (a b t : ℚ) : ℚ := a + (b - a) * t

/-- The transitions that go back and forth between two values: a new one from `a` to `b`, the ticks, and
the interruption of one that is not over, by a change of the target to the other end (each with its own
options; `ok` restricts the timing functions). -/
inductive BackAndForth (ok : (F32 → F32) → Prop) (interp : ℚ → ℚ → ℚ → ℚ) (dflt a b : ℚ) :
    Options → Tr ℚ → Prop
  | fresh (o) : ok o.ease → BackAndForth ok interp dflt a b o (new interp dflt (some a) b o)
  | tick {o t} (d) : BackAndForth ok interp dflt a b o t → BackAndForth ok interp dflt a b o (t.tick d)
  | reverse {o t t'} (o') : BackAndForth ok interp dflt a b o t → t.canTick = true → ok o'.ease →
      fromPossiblyReversed interp dflt (some t.dst) (if t.dst = b then a else b) o' t = some t' →
      BackAndForth ok interp dflt a b o' t'

/-- A transition that was just created: new, or replacing any other one. -/
inductive Created [DecidableEq V] (interp : V → V → ℚ → V) (dflt : V) : Tr V → Prop
  | new (src dst o) : Created interp dflt (new interp dflt src dst o)
  | replacing (src dst o replaced t) : fromPossiblyReversed interp dflt src dst o replaced = some t →
      Created interp dflt t

end Flair.Spec
