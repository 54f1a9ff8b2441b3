import Verif.Proofs.Values
/-! # C14 : keyword computation, C18 : property maps are values -/
namespace Flair.Props
open Flair.Values Flair.Spec
variable {V T : Type}

/-- C14.  For every declared value, registered unset behaviour (which cannot be `unset` itself), initial
value and parent (or root), computing never panics and gives exactly the specified value. -/
theorem C14_compute_spec (pv u : PropertyValue V) (init : V) (parent : Option (ComputedValue V))
    (hu : u ≠ .unset) (r : ComputedValue V) :
    compute pv u init parent = some r ↔ Computes u init parent pv r := by
  have base : ∀ (q : PropertyValue V), q ≠ .unset →
      (computeNoUnset q init parent = some r ↔ Computes u init parent q r) := by
    intro q hq
    cases q with
    | unset => exact absurd rfl hq
    | none =>
      constructor
      · intro h; cases h; exact .undeclared
      · intro h; cases h; rfl
    | initial =>
      constructor
      · intro h; cases h; exact .initial
      · intro h; cases h; rfl
    | value v =>
      constructor
      · intro h; cases h; exact .concrete v
      · intro h; cases h; rfl
    | inherit =>
      cases parent with
      | none =>
        constructor
        · intro h; cases h; exact .inheritRoot rfl
        · intro h; cases h with
          | inherit _ h => cases h
          | inheritRoot _ => rfl
      | some p =>
        constructor
        · intro h; cases h; exact .inherit _ rfl
        · intro h; cases h with
          | inherit _ h => cases h; rfl
          | inheritRoot h => cases h
  by_cases hq : pv = .unset
  · subst hq
    rw [show compute .unset u init parent = computeNoUnset u init parent from rfl, base u hu]
    constructor
    · intro h; exact .unset _ h
    · intro h; cases h with
      | unset _ h => exact h
  · rw [← base pv hq]
    cases pv <;> cases parent <;> first | rfl | exact absurd rfl hq

/-- C14, totality: with a registered unset behaviour that is not `unset`, computing never panics. -/
theorem C14_compute_total (pv u : PropertyValue V) (init : V) (parent : Option (ComputedValue V))
    (hu : u ≠ .unset) : ∃ r, compute pv u init parent = some r := by
  cases pv <;> cases parent <;> cases u <;> simp_all [compute, computeNoUnset]

/-- C14, boundary: the hypothesis is needed. Registering `unset` as the unset behaviour makes the
computation of `unset` panic (`unreachable!`). -/
theorem C14_unset_of_unset_panics (init : V) (parent : Option (ComputedValue V)) :
    compute .unset .unset init parent = none := rfl

example : compute (.unset : PropertyValue Nat) .inherit 3 (some (some 5)) = some (some 5) ∧
    compute (.inherit : PropertyValue Nat) .initial 3 none = some none ∧
    compute (.unset : PropertyValue Nat) .initial 3 (some (some 5)) = some (some 3) := by decide

/-- C18.  Every program of map operations (create, clone, drop, read, write, `set_if_neq` also through
the mutable iterators, comparisons), of any length, over shared reference counted storage, behaves as
if each map were an independent plain list of values: same final contents of every live map, same
outputs; `ptr_eq` answers true only for equal maps. -/
theorem C18_value_semantics [DecidableEq T] (ops : List (Op T)) (s' : Heap T) (os : List (Out T))
    (h : Heap.run { cells := [], handles := [] } ops = some (s', os)) :
    ValueRun [] ops (s'.handles.map (fun o => o.bind fun a => (s'.cells[a]?).map (·.2))) os :=
  (run_sound ops inv_empty h).2

/-- C18, no spurious panics: in any state, an operation that makes sense on the values does not panic. -/
theorem C18_no_panic [DecidableEq T] (s' : Heap T) (op : Op T) (t : Values T) (o : Out T)
    (hv : ValueStep (s'.handles.map (fun o => o.bind fun a => (s'.cells[a]?).map (·.2))) op t o) :
    ∃ s'' o', s'.step op = some (s'', o') :=
  step_total hv

/-- A program with aliasing: clone, write the original, the clone keeps the old value. -/
example :
    (Heap.run { cells := [], handles := [] }
      [.new [1, 2, 3], .clone 0, .ptrEq 0 1, .setIfNeq 0 1 9, .get 0 1, .get 1 1, .ptrEq 0 1, .setIfNeq 0 1 9,
        .drop 0, .set 1 0 4, .get 1 0]).map (·.2)
      = some [.handle 0, .handle 1, .bool true, .bool true, .val 9, .val 2, .bool false, .bool false,
        .unit, .unit, .val 4] := by decide

end Flair.Props
