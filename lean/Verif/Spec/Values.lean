import Verif.Model.Values
/-!
# Specification of keyword computation and of property maps as plain values
-/
namespace Flair.Spec
open Flair.Values
variable {V T : Type}

/-- The computed value CSS gives to a declared value, given the registered unset behaviour and
initial value of the property and the parent's computed value (`none` at a root). -/
inductive Computes (unsetAs : PropertyValue V) (init : V) (parent : Option (ComputedValue V)) :
    PropertyValue V → ComputedValue V → Prop
  | undeclared : Computes unsetAs init parent .none none
  | concrete (v) : Computes unsetAs init parent (.value v) (some v)
  | initial : Computes unsetAs init parent .initial (some init)
  | inherit (c) : parent = some c → Computes unsetAs init parent .inherit c
  | inheritRoot : parent = none → Computes unsetAs init parent .inherit none
  | unset (c) : Computes unsetAs init parent unsetAs c → Computes unsetAs init parent .unset c

/-- Property maps as values: each handle simply *is* a list of values, nothing is shared. -/
abbrev Values (T : Type) := List (Option (List T))

/-- The map of a live handle. -/
def live (s : Values T) (h : Nat) : Option (List T) := (s[h]?).join

/-- The value semantics of every operation.  `ptrEq` is the only one a value cannot answer:
`true` is allowed for equal maps only, `false` always. -/
inductive ValueStep [DecidableEq T] (s : Values T) : Op T → Values T → Out T → Prop
  | new (vals) : ValueStep s (.new vals) (s ++ [some vals]) (.handle s.length)
  | clone (h m) : live s h = some m → ValueStep s (.clone h) (s ++ [some m]) (.handle s.length)
  | drop (h m) : live s h = some m → ValueStep s (.drop h) (s.set h none) .unit
  | get (h i m v) : live s h = some m → m[i]? = some v → ValueStep s (.get h i) s (.val v)
  | set (h i v m) : live s h = some m → i < m.length →
      ValueStep s (.set h i v) (s.set h (some (m.set i v))) .unit
  | setIfNeq (h i v m) : live s h = some m → i < m.length →
      ValueStep s (.setIfNeq h i v) (s.set h (some (m.set i v))) (.bool (m[i]? ≠ some v))
  | ptrEq (a b m m' r) : live s a = some m → live s b = some m' → (r = true → m = m') →
      ValueStep s (.ptrEq a b) s (.bool r)
  | eq (a b m m') : live s a = some m → live s b = some m' → ValueStep s (.eq a b) s (.bool (m = m'))

/-- Runs of the value semantics. -/
inductive ValueRun [DecidableEq T] : Values T → List (Op T) → Values T → List (Out T) → Prop
  | nil (s) : ValueRun s [] s []
  | cons (s op s1 o ops s2 os) : ValueStep s op s1 o → ValueRun s1 ops s2 os →
      ValueRun s (op :: ops) s2 (o :: os)

end Flair.Spec
