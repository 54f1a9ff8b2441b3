import Verif.Model.Tree
/-!
# Model of the preparation systems of `crates/bevy_flair_style/src/systems.rs`

`calculate_effective_style_sheet`, `sync_siblings_system`, `sort_pseudo_elements`.
Queries are modelled as functions `E → Option component`; the order in which a query or a hash set is
iterated is an explicit argument, about which the theorems assume nothing but that it is a reordering.
-/
namespace Flair.Prepare
open Flair.Tree
variable {E A : Type}

/-- `NodeStyleSheet` (components.rs:369-377); `A` stands for asset ids (`AssetId<StyleSheet>`). -/
inductive NodeSheet (A : Type) where
  | inherited
  | sheet (id : A)
  | block
deriving DecidableEq

/-- The match of `calculate_effective_style_sheet` (systems.rs:153-169).  `none` is
`INVALID_STYLE_SHEET_ASSET_ID`.  `sheets` is `node_style_sheet_query`; an ancestor without the component
is skipped (`.ok()?`). -/
def effective (f : Forest E) (sheets : E → Option (NodeSheet A)) (e : E) : NodeSheet A → Option A
  | .inherited =>
    ((ancestors f e).findSome? fun a =>
      match sheets a with
      | none => none
      | some .inherited => none
      | some (.sheet id) => some (some id)
      | some .block => some none).getD none
  | .sheet id => some id
  | .block => none

/-- The closure `set_effective_style_sheet` (systems.rs:144-187): new effective sheets and whether the
one of `e` changed.  The component `NodeStyleData` is required by `NodeStyleSheet`
(components.rs:369-377), so that `style_data_query` has exactly the entities with a sheet component.
Simplification: the selector flags reset and the `needs_style_recalculation` mark are left out. -/
def setEffective [DecidableEq E] [DecidableEq A] (f : Forest E) (sheets : E → Option (NodeSheet A))
    (eff : E → Option A) (e : E) : (E → Option A) × Bool :=
  match sheets e with
  | none => (eff, false)
  | some s =>
    let v := effective f sheets e s
    if eff e = v then (eff, false) else (fun x => if x = e then v else eff x, true)

/-- First loop (systems.rs:189-193): the changed entities in query order; also collects the modified
ones. -/
def firstPass [DecidableEq E] [DecidableEq A] (f : Forest E) (sheets : E → Option (NodeSheet A)) :
    List E → (E → Option A) → (E → Option A) × List E
  | [], eff => (eff, [])
  | e :: es, eff =>
    let (eff1, m) := setEffective f sheets eff e
    let (eff2, ms) := firstPass f sheets es eff1
    (eff2, if m then e :: ms else ms)

/-- Descendants (`iter_ui_descendants`, custom_iterators.rs:52-55), as the driver collects them. -/
def descendants (f : Forest E) (e : E) : List E :=
  ((bfsCollect f (f.nodes.length + 1) (bfsNew f e)).getD []).map Prod.snd

/-- `calculate_effective_style_sheet` (systems.rs:132-199).  `changed` is what
`Query<Entity, Changed<NodeStyleSheet>>` yields; `order` is the iteration order of the hash set of
modified entities. -/
def calculateEffective [DecidableEq E] [DecidableEq A] (f : Forest E)
    (sheets : E → Option (NodeSheet A)) (order : List E → List E) (changed : List E)
    (eff : E → Option A) : E → Option A :=
  let (eff1, modified) := firstPass f sheets changed eff
  ((order modified).flatMap (descendants f)).foldl (fun eff e => (setEffective f sheets eff e).1) eff1

/-! ## Siblings -/

/-- `Siblings` (components.rs:50-55) -/
structure Siblings (E : Type) where
  next : Option E
  prev : Option E
deriving DecidableEq

/-- `Siblings::default()` -/
def Siblings.default : Siblings E := ⟨none, none⟩

/-- `Siblings::recalculate_with` (components.rs:60-83).  Outer `none`: the panic "self_entity is not
part of the siblings". -/
def recalculateWith [DecidableEq E] (self : E) (all : List E) : Option (Siblings E) :=
  match all.findIdx? (· = self) with
  | none => none
  | some i => some ⟨if i < all.length - 1 then all[i + 1]? else none, if i > 0 then all[i - 1]? else none⟩

/-- First loop of `sync_siblings_system` (systems.rs:100-110).  `es` is the iteration order of the query
`(Entity, &mut Siblings)`; `added`/`changed` are change detection of `Siblings` and of `Children`
(`CustomUiChildren::is_changed`).  Returns the components and `entities_recalculated`. -/
def siblingsLoop1 [DecidableEq E] (f : Forest E) (added changed : E → Bool) :
    List E → (E → Option (Siblings E)) → List E → Option ((E → Option (Siblings E)) × List E)
  | [], sib, done => some (sib, done)
  | e :: es, sib, done =>
    match f.parent e with
    | none => siblingsLoop1 f added changed es sib done
    | some p =>
      if !added e && !changed p then siblingsLoop1 f added changed es sib done
      else match recalculateWith e (uiSiblings f e) with
        | none => none
        | some s => siblingsLoop1 f added changed es (fun x => if x = e then some s else sib x) (e :: done)

/-- Second loop (systems.rs:114-128), flattened: the pairs (changed parent, its child) in iteration
order.  The code tests `entities_recalculated.contains(&parent)`. -/
def siblingsLoop2 [DecidableEq E] (f : Forest E) :
    List (E × E) → (E → Option (Siblings E)) → List E → Option (E → Option (Siblings E))
  | [], sib, _ => some sib
  | (p, e) :: es, sib, done =>
    if p ∈ done then siblingsLoop2 f es sib done
    else match sib e with
      | none => siblingsLoop2 f es sib done
      | some _ => match recalculateWith e (uiSiblings f e) with
        | none => none
        | some s => siblingsLoop2 f es (fun x => if x = e then some s else sib x) (e :: done)

/-- `sync_siblings_system` (systems.rs:92-130).  `nodes`: the entities with `Siblings` in query order,
`parents`: the entities with changed `Children` in query order.  `none` is a panic. -/
def syncSiblings [DecidableEq E] (f : Forest E) (added changed : E → Bool) (nodes parents : List E)
    (sib : E → Option (Siblings E)) : Option (E → Option (Siblings E)) :=
  match siblingsLoop1 f added changed nodes sib [] with
  | none => none
  | some (sib1, done) =>
    siblingsLoop2 f (parents.flatMap fun p => (f.children p).map fun c => (p, c)) sib1 done

/-! ## Pseudo elements -/

/-- `PseudoElement` -/
inductive Pseudo where
  | before
  | after
deriving DecidableEq

/-- The comparison of `sort_pseudo_elements` (systems.rs:81-89). -/
def pseudoCmp [DecidableEq E] (before after : Option E) (a b : E) : Ordering :=
  if before = some a ∨ after = some b then .lt
  else if before = some b ∨ after = some a then .gt
  else .eq

/-- The body of the loop of `sort_pseudo_elements` (systems.rs:53-90) for one entity: the new children.
`Children::sort_by` is a stable sort: modelled by `List.mergeSort`, with `cmp a b ≠ Greater` for ≤. -/
def sortPseudo [DecidableEq E] (pseudo : E → Option Pseudo) (children : List E) : List E :=
  let before := children.find? fun c => pseudo c = some .before
  let after := children.find? fun c => pseudo c = some .after
  if before.isNone && after.isNone then children
  else children.mergeSort fun a b => pseudoCmp before after a b ≠ .gt

end Flair.Prepare
