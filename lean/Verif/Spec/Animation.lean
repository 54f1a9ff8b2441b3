import Verif.Model.Animation
/-! # Specification of animations -/
namespace Flair.Spec
open Flair.Animation
variable {V : Type}

/-- `tick` with each of the deltas in turn returns `b`. -/
inductive Runs : Anim → List Nat → Anim → Prop
  | nil (a) : Runs a [] a
  | snoc {a ds b} (d c) : Runs a ds b → b.Ticks d c → Runs a (ds ++ [d]) c

/-- Iteration counts are 32 bit numbers. -/
def Options.Valid (o : Options) : Prop := ∀ n, o.count = some n → n ≤ u32Max

/-- The iteration in progress at time `T` (the first is 0). -/
def iterationAt (o : Options) (T : Nat) : Nat := (T - o.delay) / o.duration

/-- The progress within the iteration at time `T`. -/
def iterProgressAt (o : Options) (T : Nat) : ℚ := ((T - o.delay) % o.duration : Nat) / (o.duration : ℚ)

/-- CSS `animation-direction`: position on the keyframes for progress `p` in iteration `k`. -/
def positionAt (dir : Direction) (k : Nat) (p : ℚ) : ℚ :=
  match dir with
  | .normal => p
  | .reverse => 1 - p
  | .alternate => if k % 2 = 0 then p else 1 - p
  | .alternateReverse => if k % 2 = 0 then 1 - p else p

/-- The time at which an animation with `n` iterations ends. -/
def endAt (o : Options) (n : Nat) : Nat := o.delay + n * o.duration

/-- Whether time `T` is at or after the end. -/
def AtEnd (o : Options) (T : Nat) : Prop := ∃ n, o.count = some n ∧ endAt o n ≤ T

/-- CSS `animation-fill-mode`: is the first keyframe shown during the delay? -/
def fillsBefore : Fill → Bool
  | .none => false
  | .forwards => false
  | .backwards => true
  | .both => true

/-- CSS `animation-fill-mode`: is the last keyframe shown after the end? -/
def fillsAfter : Fill → Bool
  | .none => false
  | .forwards => true
  | .backwards => false
  | .both => true

/-- CSS: what an animation shows at time `T`; `lingering`: it reached its end and no time has passed since
(the last frame is still shown then, whatever the fill mode). -/
def animValue (curve : ℚ → V) (o : Options) (T : Nat) (lingering : Bool) : Option V :=
  if T < o.delay then
    if fillsBefore o.fill then some (curve (positionAt o.direction 0 0)) else none
  else match o.count with
    | none => some (curve (positionAt o.direction (iterationAt o T) (iterProgressAt o T)))
    | some n =>
      if T < endAt o n then some (curve (positionAt o.direction (iterationAt o T) (iterProgressAt o T)))
      else if lingering || fillsAfter o.fill then some (curve (positionAt o.direction (n - 1) 1))
      else none

/-- What is expected of an animation with options `o` that is at time `T`; `over`: time has passed since it
reached its end. -/
structure AnimAt (o : Options) (T : Nat) (over : Bool) (a : Anim) : Prop where
  /-- during the delay -/
  pending : T < o.delay → a.state = .pending ∧ a.current = 0 ∧ a.totalElapsed = T
  /-- in an iteration -/
  running : o.delay ≤ T → ¬ AtEnd o T → a.state = .running ∧ a.current = min (iterationAt o T) u32Max ∧
    (iterationAt o T ≤ u32Max → a.totalElapsed = T) ∧
    ∀ p, a.transform p = positionAt o.direction (iterationAt o T) p
  /-- at or after the end -/
  ended : ∀ n, o.count = some n → endAt o n ≤ T →
    a.state = (if over then .finished else .justFinished) ∧ a.current = n - 1 ∧
    a.totalElapsed = endAt o n ∧ ∀ p, a.transform p = positionAt o.direction (n - 1) p

/-- The end was reached after some of the ticks, and time has passed since. -/
def Past (o : Options) (ds : List Nat) : Prop :=
  ∃ n l₁ l₂, o.count = some n ∧ ds = l₁ ++ l₂ ∧ l₁ ≠ [] ∧ endAt o n ≤ l₁.sum ∧ 0 < l₂.sum

/-- Options that CSS can give an animation that is to run. -/
structure Options.Good (o : Options) : Prop where
  valid : Options.Valid o
  count : o.count ≠ some 0
  returns : 0 < o.duration ∨ o.count ≠ none

/-- The time shown for time `T`: it stops at the end. -/
def cappedTime (o : Options) (T : Nat) : Nat :=
  match o.count with
  | some n => min T (endAt o n)
  | none => T

/-- `Hist o T a`: animation `a` with options `o` after any sequence of ticks and option changes; `T` is the
time that passed while it was not paused, where time past the end counts only until the next change of
options. -/
inductive Hist : Options → Nat → Anim → Prop
  | new (o) : Options.Good o → Hist o 0 (new o)
  | tick {o T a b} (d) : Hist o T a → a.Ticks d b → Hist o (if o.paused then T else T + d) b
  | update {o T a b} (o') : Hist o T a → Options.Good o' →
      (o.count = none → iterationAt o T ≤ u32Max) → a.Updates o' b → Hist o' (cappedTime o T) b

end Flair.Spec
