import Verif.Model.StyleData
/-! # Specification of the style data pass -/
namespace Flair.Spec
open Flair.StyleData
variable {E V : Type}

/-- The focus states are right: `:focus` exactly on the focused entity, `:focus-visible` exactly on it
and only if focus is visible. -/
def FocusOk (focus : Option E) (visible : Bool) (data : E → Option FocusState) : Prop :=
  ∀ e s, data e = some s → (s.focused = true ↔ focus = some e) ∧
    (s.visible = true ↔ focus = some e ∧ visible = true)

/-- The states after a pass of the focus system: focus, visibility resource (if present), style data,
local state.  Between passes focus and visibility change arbitrarily (and are then reported as changed;
they may also be reported without having changed; the visibility resource is not removed); entities
lose their style data, or get new style data.  `late focus focus' e` tells whether an entity `e` may get
new style data, when the focus goes from `focus` to `focus'`. -/
inductive FocusRun [DecidableEq E] (late : Option E → Option E → E → Prop) :
    Option E → Option Bool → (E → Option FocusState) → Option E → Prop
  | start (data) : (∀ e s, data e = some s → s = ⟨false, false⟩) → FocusRun late none none data none
  | frame {focus vis data prev} (focus' vis' data' fchanged vchanged) :
      FocusRun late focus vis data prev →
      (focus' ≠ focus → fchanged = true) →
      (vis ≠ none → vis' ≠ none) →
      (vis' ≠ vis → vchanged = true) →
      (∀ e, data' e = data e ∨ data' e = none ∨ (data' e = some ⟨false, false⟩ ∧ late focus focus' e)) →
      FocusRun late focus' vis'
        (syncInputFocus (focus', fchanged) (vis'.map fun v => (v, vchanged)) data' prev).1
        (syncInputFocus (focus', fchanged) (vis'.map fun v => (v, vchanged)) data' prev).2

/-- Not an entity that was focused and stays focused. -/
def NotWhileFocused (focus focus' : Option E) (e : E) : Prop := ¬ (focus = some e ∧ focus' = some e)

/-- No restriction. -/
def Anytime (_ _ : Option E) (_ : E) : Prop := True

/-- The states (component, stored data) after a pass of a system `sys` that copies a component into the
style data (`sys true` in the pass in which the style data is new).  The entity gets its style data (`init`) at
a time when its component was `v`, with `start v`; then any number of passes, with any edits (subject to `ok`)
before each. -/
inductive CopyRun {D : Type} (sys : Bool → Comp V → D → D) (init : D) (start : Option V → Prop)
    (ok : Option V → List (Edit V) → Prop) : Option V → D → Prop
  | styled {v} (edits) : start v → ok v edits →
      CopyRun sys init start ok (edits.foldl Comp.edit (.quiet v)).value
        (sys true (edits.foldl Comp.edit (.quiet v)) init)
  | frame {v d} (edits) : CopyRun sys init start ok v d → ok v edits →
      CopyRun sys init start ok (edits.foldl Comp.edit (.quiet v)).value
        (sys false (edits.foldl Comp.edit (.quiet v)) d)

/-- The entity can have the component since long before it gets its style data. -/
def AnyStart (_ : Option V) : Prop := True

/-- In the frame in which it gets its style data, the entity did not have the component before. -/
def NotBefore (v : Option V) : Prop := v = none

/-- All edit sequences. -/
def AnyEdits (_ : Option V) (_ : List (Edit V)) : Prop := True

/-- No removal of the component. -/
def NoRemoval (_ : Option V) (es : List (Edit V)) : Prop := .remove ∉ es

/-- Not a removal with a later insertion before the same pass. -/
def NoReinsert (_ : Option V) (es : List (Edit V)) : Prop :=
  ∀ l1 l2, es = l1 ++ .remove :: l2 → ∀ x ∈ l2, x = .remove

/-- The text `s` begins with the word `w`: a longest piece without white space. -/
def IsWordOf (ws : Char → Bool) (s w : List Char) : Prop :=
  ∃ b, s = w ++ b ∧ w ≠ [] ∧ (∀ x ∈ w, ws x = false) ∧ ∀ c ∈ b.head?, ws c = true

/-- `w` is a word of the text `s`: one that stands at its begin, or after white space. -/
def IsWord (ws : Char → Bool) (s w : List Char) : Prop :=
  IsWordOf ws s w ∨ ∃ p c s', s = p ++ c :: s' ∧ ws c = true ∧ IsWordOf ws s' w

/-- An operation on a class list. -/
inductive ClassOp where
  | add (c : List Char)
  | remove (c : List Char)
  | toggle (c : List Char)

/-- The set of classes after an operation. -/
def ClassOp.onSet (s : List Char → Prop) : ClassOp → List Char → Prop
  | .add c => fun x => x = c ∨ s x
  | .remove c => fun x => x ≠ c ∧ s x
  | .toggle c => fun x => if x = c then ¬ s x else s x

/-- The name an operation is about. -/
def ClassOp.name : ClassOp → List Char
  | .add c | .remove c | .toggle c => c

/-- The operation of the code. -/
def ClassOp.apply (l : ClassList) : ClassOp → ClassList
  | .add c => Flair.StyleData.add l c
  | .remove c => Flair.StyleData.remove l c
  | .toggle c => Flair.StyleData.toggle l c

/-- In a history of marker operations (`true`: this one recalculated the style), a recalculation is due:
nothing was ever recalculated, or since the last recalculation there was a mark, a request for a reset
or a newly added component. -/
def Due (h : List (MOp × Bool)) : Prop :=
  (∀ x ∈ h, x.2 = false) ∨
  ∃ l1 op l2, h = l1 ++ op :: l2 ∧ (∀ x ∈ l2, x.2 = false) ∧
    (op.1 = .mark ∨ op.1 = .requestReset ∨ op.1 = .resetPass true)

end Flair.Spec
