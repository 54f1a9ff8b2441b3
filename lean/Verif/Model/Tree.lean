/-!
# Model of the UI hierarchy and of `crates/bevy_flair_style/src/custom_iterators.rs`

The hierarchy is bevy's `ChildOf` / `Children` pair of components; `iter_ui_children` and
`get_parent` read them (no ghost nodes, the default feature set).  What bevy maintains about the pair is
stated in `Forest.WF`, as a hypothesis of the theorems.
-/
namespace Flair.Tree
variable {E : Type}

/-- The hierarchy the iterators read: `UiChildren::iter_ui_children` and `UiChildren::get_parent`
(custom_iterators.rs:34-40), and a list of the entities of the (finite) world. -/
structure Forest (E : Type) where
  children : E → List E
  parent : E → Option E
  nodes : List E

/-- `a` is a strict ancestor of `e` in the hierarchy. -/
inductive Forest.Anc (f : Forest E) (a : E) : E → Prop
  | child (e : E) : f.parent e = some a → Anc f a e
  | step (p e : E) : Anc f a p → f.parent e = some p → Anc f a e

/-- What bevy's relationship hooks keep: `Children` and `ChildOf` mirror each other, no child is
listed twice, the world is finite.  Acyclicity is an assumption on the application. -/
structure Forest.WF (f : Forest E) : Prop where
  mem_iff : ∀ p c, c ∈ f.children p ↔ f.parent c = some p
  nodup : ∀ p, (f.children p).Nodup
  parent_mem : ∀ p c, f.parent c = some p → p ∈ f.nodes ∧ c ∈ f.nodes
  acyclic : ∀ e, ¬ f.Anc e e

/-- `UiAncestorIter::next` (custom_iterators.rs:120-129) called at most `n` times and collected:
`self.next = get_parent(self.next?)`. -/
def ancestorsN (f : Forest E) : Nat → E → List E
  | 0, _ => []
  | n + 1, e =>
    match f.parent e with
    | none => []
    | some p => p :: ancestorsN f n p

/-- The full ancestor iteration.  (`next` is called until it returns `None`;
`Proofs/Tree.lean` shows that this number of calls always reaches `None` in a `WF` forest.) -/
def ancestors (f : Forest E) (e : E) : List E := ancestorsN f (f.nodes.length + 1) e

/-- `UiDescendantWithParentIter::new` (custom_iterators.rs:79-87): the initial queue. -/
def bfsNew (f : Forest E) (e : E) : List (E × E) := (f.children e).map (fun c => (e, c))

/-- `UiDescendantWithParentIter::next` (custom_iterators.rs:93-103): pop the front, push its
children at the back. -/
def bfsNext (f : Forest E) : List (E × E) → Option ((E × E) × List (E × E))
  | [] => none
  | (parent, entity) :: q => some ((parent, entity), q ++ (f.children entity).map (fun c => (entity, c)))

/-- Drive the iterator with at most `n` calls of `next`: `some out` when it returned `None` after
yielding `out`, `none` when it has not finished yet. -/
def bfsCollect (f : Forest E) : Nat → List (E × E) → Option (List (E × E))
  | 0, _ => none
  | n + 1, q =>
    match bfsNext f q with
    | none => some []
    | some (x, q') => (bfsCollect f n q').map (x :: ·)

/-- `iter_ui_siblings` (custom_iterators.rs:57-62): children of the parent (the entity included). -/
def uiSiblings (f : Forest E) (e : E) : List E :=
  match f.parent e with
  | none => []
  | some p => f.children p

end Flair.Tree
