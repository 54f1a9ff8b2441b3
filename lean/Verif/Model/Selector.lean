import Verif.Model.Invalidation
/-!
# Model of the element the selectors are matched on

`css_selector/element.rs`, `css_selector/mod.rs` (pseudo classes and elements, `matches_selector`), `components.rs`
(`NodeStyleData`), `lib.rs` (`NodePseudoState`), `systems.rs` (`calculate_is_root`).

The parser and the matcher of selectors are the third-party crate `selectors`; the matcher is modelled after its
documented behaviour (every component of a compound is asked of the element through the `Element` interface, combinators
walk with the moves of the interface, trying each candidate; the crate stops some of these searches earlier, which does
not change the outcome).  What element.rs answers is modelled function by function.
-/
namespace Flair.Selector
open Flair.Tree Flair.Invalidation
variable {E : Type}

/-! ## Data -/

/-- `NodePseudoState` (lib.rs:58-73) -/
structure PseudoState where
  pressed : Bool := false
  hovered : Bool := false
  focused : Bool := false
  focusedAndVisible : Bool := false
  disabled : Bool := false
  checked : Bool := false
deriving DecidableEq

/-- `InternalPseudoStateSelector` (css_selector/mod.rs:31-39) and `NodePseudoStateSelector` (lib.rs:105-119); the
conversion (mod.rs:41-54) maps each to the one with the same name. -/
inductive StateSel where
  | pressed | hovered | focused | focusedAndVisible | disabled | checked
deriving DecidableEq

/-- `NodePseudoState::matches` (lib.rs:91-100) -/
def PseudoState.matches (s : PseudoState) : StateSel → Bool
  | .pressed => s.pressed
  | .hovered => s.hovered
  | .focused => s.focused
  | .focusedAndVisible => s.focusedAndVisible
  | .disabled => s.disabled
  | .checked => s.checked

/-- `PseudoElement` (components.rs:1294-1299), `CssPseudoElement` (mod.rs:157-161) -/
inductive PseudoElem where
  | before | after
deriving DecidableEq

/-- `NodeStyleData` (components.rs:250-264), without the sheet.  `attributes` is a map. -/
structure NodeData where
  isRoot : Bool := false
  id : Option String := none
  classes : List String := []
  attributes : String → Option String := fun _ => none
  typeName : Option String := none
  state : PseudoState := {}
  pseudo : Option PseudoElem := none

/-- The pseudo classes `parse_non_ts_pseudo_class` knows (mod.rs:213-246), the name being in lower case. -/
def stateNamed (name : String) : Option StateSel :=
  if name = "hover" then some .hovered
  else if name = "active" then some .pressed
  else if name = "focus" then some .focused
  else if name = "focus-visible" then some .focusedAndVisible
  else if name = "disabled" then some .disabled
  else if name = "checked" then some .checked
  else none

/-- The pseudo elements `parse_pseudo_element` knows (mod.rs:248-268), the name being in lower case. -/
def pseudoNamed (name : String) : Option PseudoElem :=
  if name = "before" then some .before else if name = "after" then some .after else none

/-! ## The answers of the element -/

/-- The elements of the world (element.rs:74-79, 88-94) -/
abbrev SWorld (E : Type) := Flair.Invalidation.World E NodeData

/-- A constraint on a namespace (`selectors::attr::NamespaceConstraint`) -/
inductive Ns where
  | any
  | specific (url : String)
deriving DecidableEq

/-- `has_local_name` (element.rs:193-195), `NodeStyleData::has_type_name` (components.rs:311-313) -/
def hasLocalName (w : SWorld E) (e : E) (n : String) : Bool := (w.data e).typeName == some n

/-- `match_non_ts_pseudo_class` (element.rs:197-203), `matches_pseudo_state` (components.rs:316-318) -/
def matchState (w : SWorld E) (e : E) (s : StateSel) : Bool := (w.data e).state.matches s

/-- `has_id` (element.rs:205-215); the comparison is case sensitive since the mode is `NoQuirks` (mod.rs:470). -/
def hasId (w : SWorld E) (e : E) (i : String) : Bool :=
  match (w.data e).id with
  | some name => name == i
  | none => false

/-- `has_class` (element.rs:217-226), case sensitive as above -/
def hasClass (w : SWorld E) (e : E) (c : String) : Bool := (w.data e).classes.any (· == c)

/-- `is_same_type` (element.rs:228-230) -/
def isSameType (w : SWorld E) (e o : E) : Bool :=
  (w.data e).typeName.isSome && (w.data e).typeName == (w.data o).typeName

/-- `attr_matches` (element.rs:232-247); `op`: the operator and the value of the selector (`eval_str`, crate
`selectors`). -/
def attrMatches (w : SWorld E) (e : E) (ns : Ns) (key : String) (op : String → Bool) : Bool :=
  if ns ≠ .any ∧ ns ≠ .specific "" then false
  else
    match (w.data e).attributes key with
    | none => false
    | some value => op value

/-- `has_attr_in_no_namespace` (element.rs:249-251) -/
def hasAttr (w : SWorld E) (e : E) (key : String) : Bool := ((w.data e).attributes key).isSome

/-- `is_empty` (element.rs:253-259) -/
def isEmpty (w : SWorld E) (e : E) : Bool := (w.forest.children e).head?.isNone

/-- `is_root` (element.rs:261-263) -/
def isRoot (w : SWorld E) (e : E) : Bool := (w.data e).isRoot

/-- `match_pseudo_element` (element.rs:278-288) -/
def matchPseudo (w : SWorld E) (e : E) (p : PseudoElem) : Bool := (w.data e).pseudo == some p

/-- `has_namespace` (element.rs:32-37): `unimplemented!`, a panic -/
def hasNamespace (_w : SWorld E) (_e : E) (_url : String) : Option Bool := none

/-! ## Selectors -/

/-- The combinators, with the one the crate puts before a pseudo element -/
inductive Link where
  | child | desc | next | later | pseudo
deriving DecidableEq

mutual
/-- A simple selector (`selectors::parser::Component`) -/
inductive Simple where
  | universal
  /-- `*|` before a name -/
  | anyNamespace
  /-- `|` before a name -/
  | noNamespace
  | localName (n : String)
  | id (i : String)
  | cls (c : String)
  | attrExists (key : String)
  | attr (ns : Ns) (key : String) (op : String → Bool)
  | root
  | scope
  | empty
  | state (s : StateSel)
  | nth (a b : Int) (fromEnd : Bool)
  | nthOfType (a b : Int) (fromEnd : Bool)
  | nthOf (a b : Int) (fromEnd : Bool) (sels : Sels)
  | not (sels : Sels)
  | is (sels : Sels)
  | where_ (sels : Sels)
  /-- `&`, only inside of nested rules (mod.rs `parse_parent_selector`) -/
  | parent
  /-- the relative selectors of `:has()`, with `anchor` at their left end and the first combinator after it -/
  | has (rels : Rels)
  | anchor
  | pseudoElement (p : PseudoElem)
/-- A compound selector -/
inductive Compound where
  | nil
  | cons (s : Simple) (c : Compound)
/-- A complex selector: the compound of the subject, and what stands to the left of it -/
inductive Sel where
  | subject (c : Compound)
  | link (left : Sel) (k : Link) (c : Compound)
/-- A list of selectors -/
inductive Sels where
  | nil
  | cons (s : Sel) (ss : Sels)
/-- A list of relative selectors, each with its first combinator -/
inductive Rels where
  | nil
  | cons (k : Link) (s : Sel) (rs : Rels)
end

/-! ## The matcher -/

/-- The elements reached by repeating a move (`parent_element` 143-150, `prev_sibling_element` 152-164,
`next_sibling_element` 166-178), nearest first, at most `n` of them -/
def chain [DecidableEq E] (w : SWorld E) (d : Dir) : Nat → E → List E
  | 0, _ => []
  | n + 1, e =>
    match w.step d e with
    | none => []
    | some x => x :: chain w d n x

/-- All of them: no chain is longer than the number of entities -/
def chainAll [DecidableEq E] (w : SWorld E) (d : Dir) (e : E) : List E := chain w d (w.forest.nodes.length + 1) e

/-- The descendants, reached by `first_element_child` (180-191) and `next_sibling_element`; `n`: how deep -/
def subtree [DecidableEq E] (w : SWorld E) : Nat → E → List E
  | 0, _ => []
  | n + 1, e =>
    match w.step .child e with
    | none => []
    | some c => (c :: chainAll w .next c).flatMap fun x => x :: subtree w n x

/-- Where a combinator leads (crate `selectors`, `next_element_for_combinator`); a pseudo element belongs to its parent -/
def candidates [DecidableEq E] (w : SWorld E) (e : E) : Link → List E
  | .child => (w.step .parent e).toList
  | .desc => chainAll w .parent e
  | .next => (w.step .prev e).toList
  | .later => chainAll w .prev e
  | .pseudo => (w.step .parent e).toList

/-- Where `:has()` looks for an element (crate `selectors`), by the first combinator -/
def hasCandidates [DecidableEq E] (w : SWorld E) (e : E) : Link → List E
  | .child => subtree w (w.forest.nodes.length + 1) e
  | .desc => subtree w (w.forest.nodes.length + 1) e
  | .next => (chainAll w .next e).flatMap fun x => x :: subtree w (w.forest.nodes.length + 1) x
  | .later => (chainAll w .next e).flatMap fun x => x :: subtree w (w.forest.nodes.length + 1) x
  | .pseudo => []

/-- The second test only if the first holds; `none`: a panic -/
def bothM (a b : Option Bool) : Option Bool :=
  match a with
  | some true => b
  | r => r

/-- The second test only if the first does not hold -/
def eitherM (a b : Option Bool) : Option Bool :=
  match a with
  | some false => b
  | r => r

/-- The tests in turn until one holds -/
def anyM {X : Type} (f : X → Option Bool) : List X → Option Bool
  | [] => some false
  | x :: xs =>
    match f x with
    | some false => anyM f xs
    | r => r

/-- How many pass the test -/
def countM {X : Type} (f : X → Option Bool) : List X → Option Nat
  | [] => some 0
  | x :: xs =>
    match f x with
    | none => none
    | some b => (countM f xs).map fun n => if b then n + 1 else n

/-- `AnPlusB::matches_index` (crate `selectors`): division and check -/
def matchesIndex (a b index : Int) : Bool :=
  let an := index - b
  if a = 0 then an == 0 else decide (0 ≤ an.tdiv a) && a * an.tdiv a == an

/-- The siblings counted by the `nth` selectors, nearest first -/
def nthSiblings [DecidableEq E] (w : SWorld E) (fromEnd : Bool) (e : E) : List E :=
  chainAll w (if fromEnd then .next else .prev) e

mutual
/-- `matches_simple_selector` (crate `selectors`); `anchor`: the element a surrounding `:has()` is tested on.
`:scope` is the root, since no scope is given (mod.rs:463-474); so is an `&` that was not replaced. -/
def matchSimple [DecidableEq E] (w : SWorld E) (anchor : Option E) : Simple → E → Option Bool
  | .universal, _ => some true
  | .anyNamespace, _ => some true
  | .noNamespace, e => hasNamespace w e ""
  | .localName n, e => some (hasLocalName w e n)
  | .id i, e => some (hasId w e i)
  | .cls c, e => some (hasClass w e c)
  | .attrExists k, e => some (hasAttr w e k)
  | .attr ns k op, e => some (attrMatches w e ns k op)
  | .root, e => some (isRoot w e)
  | .scope, e => some (isRoot w e)
  | .empty, e => some (isEmpty w e)
  | .state s, e => some (matchState w e s)
  | .nth a b fromEnd, e =>
    if a = 0 ∧ b = 1 then some (w.step (if fromEnd then .next else .prev) e).isNone
    else some (matchesIndex a b (1 + (nthSiblings w fromEnd e).length))
  | .nthOfType a b fromEnd, e =>
    some (matchesIndex a b (1 + ((nthSiblings w fromEnd e).filter (isSameType w e)).length))
  | .nthOf a b fromEnd sels, e =>
    bothM (matchAny w anchor sels e)
      ((countM (fun x => matchAny w anchor sels x) (nthSiblings w fromEnd e)).map fun n => matchesIndex a b (1 + n))
  | .not sels, e => (matchAny w anchor sels e).map (!·)
  | .is sels, e => matchAny w anchor sels e
  | .where_ sels, e => matchAny w anchor sels e
  | .parent, e => some (isRoot w e)
  | .has rels, e => matchHas w rels e
  | .anchor, e => some (anchor == some e)
  | .pseudoElement p, e => some (matchPseudo w e p)
/-- `matches_compound_selector` (crate `selectors`) -/
def matchCompound [DecidableEq E] (w : SWorld E) (anchor : Option E) : Compound → E → Option Bool
  | .nil, _ => some true
  | .cons s c, e => bothM (matchSimple w anchor s e) (matchCompound w anchor c e)
/-- `matches_complex_selector` (crate `selectors`) -/
def matchSel [DecidableEq E] (w : SWorld E) (anchor : Option E) : Sel → E → Option Bool
  | .subject c, e => matchCompound w anchor c e
  | .link l k c, e =>
    bothM (matchCompound w anchor c e) (anyM (fun x => matchSel w anchor l x) (candidates w e k))
/-- `list_matches_complex_selector` (crate `selectors`) -/
def matchAny [DecidableEq E] (w : SWorld E) (anchor : Option E) : Sels → E → Option Bool
  | .nil, _ => some false
  | .cons s ss, e =>
    eitherM (matchSel w anchor s e) (matchAny w anchor ss e)
/-- `matches_relative_selectors` (crate `selectors`) -/
def matchHas [DecidableEq E] (w : SWorld E) : Rels → E → Option Bool
  | .nil, _ => some false
  | .cons k s rs, e =>
    eitherM (anyM (fun x => matchSel w (some e) s x) (hasCandidates w e k)) (matchHas w rs e)
end

/-- `CssSelector::matches_selector` (mod.rs:463-481) -/
def matchesSelector [DecidableEq E] (w : SWorld E) (s : Sel) (e : E) : Option Bool := matchSel w none s e

/-! ## `:root` -/

/-- What happens to the parent of one entity (a `Node`) between two passes: `ChildOf` inserted or removed. -/
inductive ParentEdit (E : Type) where
  | set (p : E)
  | remove

/-- The parent, and what change detection reports: `Changed<ChildOf>`, an event of `RemovedComponents<ChildOf>`. -/
structure ParentComp (E : Type) where
  parent : Option E
  changed : Bool
  removed : Bool

/-- One edit -/
def ParentComp.edit (c : ParentComp E) : ParentEdit E → ParentComp E
  | .set p => ⟨some p, true, c.removed⟩
  | .remove => ⟨none, false, c.removed || c.parent.isSome⟩

/-- `calculate_is_root` (systems.rs:238-262) for one entity with `Node`; `CustomUiRoots` are the nodes without `ChildOf`
(custom_iterators.rs). -/
def calculateIsRoot (added : Bool) (c : ParentComp E) (stored : Bool) : Bool :=
  if added || c.changed || c.removed then c.parent.isNone else stored

end Flair.Selector
