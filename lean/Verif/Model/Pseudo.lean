import Verif.Model.Prepare
/-!
# Pseudo element support: `bevy_flair_style/src/components.rs` (1291-1355) and `sort_pseudo_elements` (systems.rs:53-96)

The operations of the application on the hierarchy are those of bevy (`ChildOf`, `Children`): a child is in the list of
one parent; giving it a parent takes it out of the list it was in and puts it at the end of the new one.
-/
namespace Flair.Pseudo
open Flair.Prepare (Pseudo sortPseudo)
variable {E : Type} [DecidableEq E]

/-- An entity: `text`: it has the component `Text` or `TextSpan`, `block`: it has `Node`; `support`:
`PseudoElementsSupport`; its `Children`, and whether they changed since the last frame. -/
structure El (E : Type) where
  text : Bool := false
  block : Bool := false
  support : Bool := false
  children : List E := []
  changed : Bool := false

/-- The entities; `pseudo`: the component `PseudoElement`; `known`: the ids given so far. -/
structure PWorld (E : Type) where
  el : E → El E
  pseudo : E → Option Pseudo
  known : List E

/-- The world with another state of one entity. -/
def PWorld.set (w : PWorld E) (e : E) (x : El E) : PWorld E := { w with el := fun y => if y = e then x else w.el y }

/-- The hook of `ChildOf` when it is replaced or removed (bevy): the child leaves the list it is in. -/
def detach (w : PWorld E) (x : E) : PWorld E :=
  { w with el := fun p =>
      { w.el p with
        children := (w.el p).children.filter (· ≠ x)
        changed := (w.el p).changed || decide (x ∈ (w.el p).children) } }

/-- The hook of `ChildOf` when it is inserted (bevy): the child goes to the end of the list. -/
def attach (w : PWorld E) (p x : E) : PWorld E :=
  w.set p { w.el p with children := (w.el p).children ++ [x], changed := true }

/-- `insert_children` (bevy) with one child: at the given index, or at the end. -/
def place (w : PWorld E) (p : E) (i : Nat) (x : E) : PWorld E :=
  w.set p { w.el p with children := (w.el p).children.insertIdx (min i (w.el p).children.length) x, changed := true }

/-- `commands.spawn` of a child; `k`: its component (`PseudoElement`, components.rs:1301-1310). -/
def spawn (w : PWorld E) (x : E) (el : El E) (k : Option Pseudo) (parent : Option E) : PWorld E :=
  let w := { (w.set x el) with
    pseudo := fun y => if y = x then k else w.pseudo y
    known := x :: w.known }
  match parent with
  | none => w
  | some p => attach w p x

/-- `on_insert_pseudo_elements_support` (components.rs:1324-1355); `b` and `a` are the ids of the new entities: texts get
`TextSpan`s, other nodes get hidden `Node`s, anything else a warning. -/
def hook (w : PWorld E) (e b a : E) : PWorld E :=
  if (w.el e).text then
    spawn (spawn w b { text := true } (some .before) (some e)) a { text := true } (some .after) (some e)
  else if (w.el e).block then
    spawn (spawn w b { block := true } (some .before) (some e)) a { block := true } (some .after) (some e)
  else w

/-- What the application does. -/
inductive Op (E : Type) where
  /-- spawns an entity without support, and its parent -/
  | spawn (x : E) (text block : Bool) (parent : Option E)
  /-- inserts `Text` or `TextSpan`, `Node` -/
  | components (e : E) (text block : Bool)
  /-- inserts `PseudoElementsSupport`; the ids that the pseudo elements get, if there are any -/
  | support (e b a : E)
  /-- removes `PseudoElementsSupport` -/
  | unsupport (e : E)
  /-- gives a child a parent (`add_child`, `ChildOf`) -/
  | append (p x : E)
  /-- `insert_children` -/
  | insertAt (p : E) (i : Nat) (x : E)
  /-- takes a child out (`remove_child`), also when it is despawned -/
  | remove (x : E)
  /-- `despawn_children` -/
  | removeAll (p : E)
  /-- a frame passes -/
  | frame

/-- `sort_pseudo_elements` (systems.rs:53-96) for one entity; change detection starts anew. -/
def sorted (w : PWorld E) (x : El E) : El E :=
  { x with
    children := if x.support && x.changed then sortPseudo w.pseudo x.children else x.children
    changed := false }

/-- One operation. -/
def step (w : PWorld E) : Op E → PWorld E
  | .spawn x text block parent => spawn w x { text := text, block := block } none parent
  | .components e text block =>
    w.set e { w.el e with text := (w.el e).text || text, block := (w.el e).block || block }
  | .support e b a => hook (w.set e { w.el e with support := true }) e b a
  | .unsupport e => w.set e { w.el e with support := false }
  | .append p x => attach (detach w x) p x
  | .insertAt p i x => place (detach w x) p i x
  | .remove x => detach w x
  | .removeAll p => w.set p { w.el p with children := [], changed := true }
  | .frame => { w with el := fun e => sorted w (w.el e) }

/-- A history. -/
def run (w : PWorld E) (ops : List (Op E)) : PWorld E := ops.foldl step w

/-- The world without entities. -/
def PWorld.empty : PWorld E := ⟨fun _ => {}, fun _ => none, []⟩

end Flair.Pseudo
