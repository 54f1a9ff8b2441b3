import Verif.Spec.Cascade
import Verif.Model.Live
import Verif.Spec.Watch
import Verif.Spec.Invalidation
import Verif.Spec.Inherit
/-!
# Histories of a running application

What may happen in an application with a fixed hierarchy, frame after frame.
-/
namespace Flair.Spec
open Flair.Tree Flair.Selector Flair.Nesting Flair.Sheet Flair.Values Flair.Media Flair.Live Flair.Invalidation
variable {E C N T V X Y : Type} [DecidableEq E] [DecidableEq N] [DecidableEq V]

/-- No property whose registered behaviour is to inherit is declared as `unset`. -/
def NoUnset (names : C → Option Nat) (unset : Nat → PropertyValue V) (r : Ruleset (RProp C N T V) N T X Y) : Prop :=
  ∀ p ∈ r.properties, match p with
    | .specific id v => v = .unset → unset id ≠ .inherit
    | .dynamic parser _ => ∀ ts vals, parser ts = some vals → ∀ v ∈ vals, v.2 = .unset → ∀ id, refersTo names v.1 = some id →
        unset id ≠ .inherit

/-- What a frame may bring: change detection reports the nodes whose data, inline style or media features differ; the loop
visits all nodes; sheets are replaced by modifying the asset or by giving nodes another one, for whole trees; a modified
sheet is loaded, and is that of all the nodes below its nodes; the selectors look only where changes are noticed
(`WatchSel`), and nothing that inherits is declared `unset`. -/
structure Brings (names : C → Option Nat) (unset : Nat → PropertyValue V) (st : Live E C N T V X Y)
    (i : Input E C N T V X Y) : Prop where
  data : ∀ x ∈ st.world.styled, i.data x ≠ st.world.data x → (i.change x).data = true
  inl : ∀ x ∈ st.world.styled, i.inline x ≠ st.inline x → (i.change x).inline = true
  scheme : ∀ x ∈ st.world.styled, (i.window x).colorScheme ≠ (st.window x).colorScheme → (i.mediaChange x).window = true
  info : ∀ x ∈ st.world.styled, ((i.window x).resolution ≠ (st.window x).resolution ∨
    (i.window x).width ≠ (st.window x).width ∨ (i.window x).height ≠ (st.window x).height) → (i.mediaChange x).info = true
  visited : ∀ x ∈ st.world.styled, x ∈ i.order
  sheets : ∀ x ∈ st.world.styled, ∀ sh, st.sheet x = some sh → i.sheet x ≠ some sh → (i.modified x || i.swapped x) = true
  trees : ∀ x p, st.world.forest.parent x = some p → (i.modified x || i.swapped x) = (i.modified p || i.swapped p)
  below : ∀ x p, st.world.forest.parent x = some p → i.modified p = true → i.modified x = true
  there : ∀ x ∈ st.world.styled, i.modified x = true → i.sheet x ≠ none
  looks : ∀ x sh, i.sheet x = some sh → ∀ s ∈ sh.selectors, WatchSel true s.1.selector.sel
  rulesets : ∀ x sh, i.sheet x = some sh → ∀ r ∈ sh.rulesets, NoUnset names unset r
  inlines : ∀ x r, i.inline x = some r → NoUnset names unset r

/-- The beginning: a hierarchy whose `Siblings` are right; every node below the roots has its components, is marked, and
nothing is calculated. -/
structure Begins (roots : List E) (st : Live E C N T V X Y) : Prop where
  ok : Consistent st.world
  nodup : roots.Nodup
  top : ∀ r ∈ roots, st.world.forest.parent r = none
  styled : ∀ e, Under st.world.forest roots e → e ∈ st.world.styled
  marked : ∀ e ∈ st.world.styled, st.marker e = true
  clean : ∀ e, Under st.world.forest roots e → st.nodes e = some resetNode

/-- A state after any number of frames. -/
inductive LiveRun [DecidableEq (Nat → ComputedValue V)] (names : C → Option Nat) (s : Inherit.Static Nat V) (roots : List E) :
    Live E C N T V X Y → Prop
  | start (st) : Begins roots st → LiveRun names s roots st
  | frame (st i) : LiveRun names s roots st → Brings names s.unset st i → LiveRun names s roots (Live.frame names s roots st i)

end Flair.Spec
