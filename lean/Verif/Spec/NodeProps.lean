import Verif.Model.NodeProps
/-! # Specification of transitions and animations on a node -/
namespace Flair.Spec
open Flair.Transition Flair.Animation Flair.NodeProps
variable {V : Type} {n : Nat}

/-- What a property should show: what animations and transitions yield, else its computed value. -/
def target (anim computed : Option V) : Option V :=
  match anim with
  | some v => some v
  | none => computed

/-- One of the animations of `p` yields `v`. -/
def AnimYields (gs : List (Group n V)) (p : Fin n) (v : V) : Prop :=
  ∃ g ∈ gs, ∃ x ∈ g.2, x.1 = p ∧ x.2.1.sampleValue x.2.2 = some v

/-- The transition of `p` yields `v`: a running one what it interpolates, one that is over its end value. -/
def TransYields (env : Env n V) (m : NP n V) (p : Fin n) (v : V) : Prop :=
  ∃ t, m.transitions p = some t ∧
    ((t.state = .pending ∨ t.state = .running) ∧ t.sampleValue (env.interp p) = some v ∨
     (t.state = .finished ∨ t.state = .canceled) ∧ t.dst = v)

/-- `v` is a value that `p` should show: one that an animation yields; if none yields one, the one that the
transition yields; if there is none either, the computed value. -/
def Wanted (env : Env n V) (m : NP n V) (computed : Option V) (p : Fin n) (v : V) : Prop :=
  AnimYields m.animations p v ∨
  (∀ w, ¬ AnimYields m.animations p w) ∧
    (TransYields env m p v ∨ (∀ w, ¬ TransYields env m p w) ∧ computed = some v)

/-- A transition of `p` is created in the frame. -/
def Starts (env : Env n V) (i : Input n V) (s : NP n V) (p : Fin n) : Prop :=
  (s.topts p).isSome ∧ s.computed p ≠ i.pend p ∧ (s.computed p).isSome ∧ (i.pend p).isSome ∧
    env.animatable p = true

/-- A step of the life of the transitions of one property, as seen from outside. -/
inductive Mark where
  | created
  | reset
  | ev (e : TEv)
deriving DecidableEq

/-- Whether the property has a transition, and whether it has started. -/
inductive Life where
  | idle
  | pending
  | running
deriving DecidableEq

/-- The permitted steps: a transition is created, is started once, and then finishes or is cancelled; any
time before it may be replaced by another one. -/
def Life.step : Life → Mark → Option Life
  | _, .reset => some .idle
  | .idle, .created => some .pending
  | .pending, .ev .started => some .running
  | .running, .ev .finished => some .idle
  | .pending, .ev .canceled => some .idle
  | .running, .ev .canceled => some .idle
  | .pending, .ev .replaced => some .pending
  | .running, .ev .replaced => some .pending
  | _, _ => none

/-- The marks of a frame for property `p`: `m` is the node before transitions are created and `m'` the node
when the events are emitted. -/
def frameMarks (i : Input n V) (m m' : NP n V) (p : Fin n) : List Mark :=
  (if i.reset then [.reset] else []) ++
  (m'.tevents.filter (fun e => e.2 = p)).map (fun e => .ev e.1) ++
  (if (m.transitions p).isNone ∧ (m'.transitions p).isSome then [.created] else [])

/-- A history of frames of a node, from its creation, with the values in the components and the marks of each
property; every frame meets `ok` (a restriction; its state is the one before transitions are created). -/
inductive Frames [DecidableEq V] (env : Env n V) (ok : Input n V → NP n V → Prop) :
    NP n V → Shown n V → (Fin n → List Mark) → Prop
  | start (shown) : Frames env ok empty shown (fun _ => [])
  | frame {s shown tr s' shown' te ae m m'} (fuel i) : Frames env ok s shown tr →
      beforeCreate fuel i s = some m → ok i m →
      beforeApply fuel env i s = some m' → SkipOk env i m' →
      frame fuel env i s shown = some (s', shown', te, ae) →
      Frames env ok s' shown' (fun p => tr p ++ frameMarks i m m' p)

/-- Calm frames: a transition is only created on a property that was not animated in the frame before, or
replaces a transition that was showing its value there. -/
def Calm (env : Env n V) (i : Input n V) (m : NP n V) : Prop :=
  ∀ p, Starts env i m p → ((m.transitions p).isNone ↔ (m.lastAnim p).isNone)

/-- No transition that was cancelled is replaced. -/
def NoReplaceCanceled (env : Env n V) (i : Input n V) (m : NP n V) : Prop :=
  ∀ p t, Starts env i m p → m.transitions p = some t → t.state ≠ .canceled

/-- Reading the marks. -/
def Life.run : Life → List Mark → Option Life
  | l, [] => some l
  | l, x :: xs => (l.step x).bind fun l => Life.run l xs

/-- Frames that follow `s`, with the same kind of restriction on the inputs. -/
inductive Later [DecidableEq V] (env : Env n V) (ok : Input n V → Prop) (s : NP n V) (shown : Shown n V) :
    NP n V → Shown n V → Prop
  | refl : Later env ok s shown s shown
  | frame {s₁ shown₁ s₂ shown₂ te ae m'} (fuel i) : Later env ok s shown s₁ shown₁ → ok i →
      beforeApply fuel env i s₁ = some m' → SkipOk env i m' →
      frame fuel env i s₁ shown₁ = some (s₂, shown₂, te, ae) → Later env ok s shown s₂ shown₂

/-- Frames in which only computed values change. -/
def OnlyValues (i : Input n V) : Prop := i.reset = false ∧ i.topts = none ∧ i.configs = none

/-- The animations after a tick of `δ` are those before, each ticked by `δ`. -/
def AllTicked (δ : Nat) (gs gs' : List (Group n V)) : Prop :=
  List.Forall₂ (fun g g' => g'.1 = g.1 ∧
    List.Forall₂ (fun x x' => x'.1 = x.1 ∧ x'.2.2 = x.2.2 ∧ x.2.1.Ticks δ x'.2.1) g.2 g'.2) gs gs'

/-- An animation of `p` named `name` is present. -/
def HasAnim (gs : List (Group n V)) (name : Nat) (p : Fin n) : Prop :=
  ∃ g ∈ gs, g.1 = name ∧ ∃ x ∈ g.2, x.1 = p

/-- The events of one animation along a sequence of ticks. -/
inductive AnimEvents : Anim → List AEv → Anim → Prop
  | refl (a) : AnimEvents a [] a
  | tick {a b es c} (δ) : AnimEvents a es b → b.Ticks δ c → AnimEvents a (es ++ tickAEvents b c) c

end Flair.Spec
