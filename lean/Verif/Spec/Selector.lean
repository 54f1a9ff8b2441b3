import Verif.Model.Selector
import Verif.Spec.Prepare
import Verif.Spec.Structure
/-!
# What selectors mean

The meaning of selectors on a tree of elements, after CSS Selectors.  From the model: the syntax of selectors and the
data of the elements, not how they are matched.  `counts` tells which entities are elements: in CSS `::before` and
`::after` are none.
-/
namespace Flair.Spec
open Flair.Tree Flair.Selector
variable {E : Type}

/-- The elements among the children of the parent that come before `e`, in their order. -/
def precedingOf [DecidableEq E] (w : SWorld E) (counts : E → Bool) (e : E) : List E :=
  match w.forest.parent e with
  | none => []
  | some p => ((w.forest.children p).takeWhile (· ≠ e)).filter counts

/-- Those that come after `e`. -/
def followingOf [DecidableEq E] (w : SWorld E) (counts : E → Bool) (e : E) : List E :=
  match w.forest.parent e with
  | none => []
  | some p => ((w.forest.children p).dropWhile (· ≠ e)).tail.filter counts

/-- `n` of the list are such that `P`. -/
inductive CountIs (P : E → Prop) : List E → Nat → Prop
  | nil : CountIs P [] 0
  | yes {x l n} : P x → CountIs P l n → CountIs P (x :: l) (n + 1)
  | no {x l n} : ¬ P x → CountIs P l n → CountIs P (x :: l) n

/-- `i` is in the sequence `an+b`. -/
def InSequence (a b : Int) (i : Nat) : Prop := ∃ n : Nat, a * n + b = i

/-- `e` is the element number `i`, in the sequence `an+b`, of those siblings for which `P`. -/
def NthAmong [DecidableEq E] (w : SWorld E) (counts : E → Bool) (P : E → Prop) (a b : Int) (fromEnd : Bool) (e : E) :
    Prop :=
  ∃ n, CountIs P (if fromEnd then followingOf w counts e else precedingOf w counts e) n ∧ InSequence a b (n + 1)

/-- The state has the meaning of its pseudo class. -/
def StateMeans (s : PseudoState) : StateSel → Prop
  | .pressed => s.pressed = true
  | .hovered => s.hovered = true
  | .focused => s.focused = true
  | .focusedAndVisible => s.focusedAndVisible = true
  | .disabled => s.disabled = true
  | .checked => s.checked = true

/-- `x` is related to `e` as the combinator between them says. -/
def Linked [DecidableEq E] (w : SWorld E) (counts : E → Bool) (e x : E) : Link → Prop
  | .child => w.forest.parent e = some x
  | .desc => w.forest.Anc x e
  | .next => (precedingOf w counts e).getLast? = some x
  | .later => x ∈ precedingOf w counts e
  | .pseudo => w.forest.parent e = some x

/-- The compound names a pseudo element. -/
def NamesPseudo : Compound → Prop
  | .nil => False
  | .cons s c => (∃ p, s = .pseudoElement p) ∨ NamesPseudo c

mutual
/-- What a simple selector says about `e`; `amp`: what `&` stands for. -/
def SimpleMeans [DecidableEq E] (w : SWorld E) (counts : E → Bool) (amp : E → Prop) (anchor : Option E) : Simple → E → Prop
  | .universal, _ => True
  | .anyNamespace, _ => True
  | .noNamespace, _ => True
  | .localName n, e => (w.data e).typeName = some n
  | .id i, e => (w.data e).id = some i
  | .cls c, e => c ∈ (w.data e).classes
  | .attrExists k, e => ∃ v, (w.data e).attributes k = some v
  | .attr ns k op, e => (ns = .any ∨ ns = .specific "") ∧ ∃ v, (w.data e).attributes k = some v ∧ op v = true
  | .root, e => w.forest.parent e = none
  | .scope, e => w.forest.parent e = none
  | .empty, e => ∀ c ∈ w.forest.children e, counts c = false
  | .state s, e => StateMeans (w.data e).state s
  | .nth a b fromEnd, e => NthAmong w counts (fun _ => True) a b fromEnd e
  | .nthOfType a b fromEnd, e =>
    NthAmong w counts (fun x => ∃ t, (w.data x).typeName = some t ∧ (w.data e).typeName = some t) a b fromEnd e
  | .nthOf a b fromEnd sels, e =>
    AnyMeans w counts amp anchor sels e ∧ NthAmong w counts (fun x => AnyMeans w counts amp anchor sels x) a b fromEnd e
  | .not sels, e => ¬ AnyMeans w counts amp anchor sels e
  | .is sels, e => AnyMeans w counts amp anchor sels e
  | .where_ sels, e => AnyMeans w counts amp anchor sels e
  | .parent, e => amp e
  | .has rels, e => HasMeans w counts amp rels e
  | .anchor, e => anchor = some e
  | .pseudoElement p, e => (w.data e).pseudo = some p
/-- All that the compound says. -/
def CompoundMeans [DecidableEq E] (w : SWorld E) (counts : E → Bool) (amp : E → Prop) (anchor : Option E) : Compound → E → Prop
  | .nil, _ => True
  | .cons s c, e => SimpleMeans w counts amp anchor s e ∧ CompoundMeans w counts amp anchor c e
/-- `e` is an element, or a pseudo element the compound names, and what it says holds; and there is an element where the
combinator says that is as the left side says. -/
def SelMeans [DecidableEq E] (w : SWorld E) (counts : E → Bool) (amp : E → Prop) (anchor : Option E) : Sel → E → Prop
  | .subject c, e => (counts e = true ∨ NamesPseudo c) ∧ CompoundMeans w counts amp anchor c e
  | .link l k c, e => ((counts e = true ∨ NamesPseudo c) ∧ CompoundMeans w counts amp anchor c e) ∧
      ∃ x, Linked w counts e x k ∧ SelMeans w counts amp anchor l x
/-- One of the selectors says so. -/
def AnyMeans [DecidableEq E] (w : SWorld E) (counts : E → Bool) (amp : E → Prop) (anchor : Option E) : Sels → E → Prop
  | .nil, _ => False
  | .cons s ss, e => SelMeans w counts amp anchor s e ∨ AnyMeans w counts amp anchor ss e
/-- There is an element that is, seen from `e`, as one of the relative selectors says. -/
def HasMeans [DecidableEq E] (w : SWorld E) (counts : E → Bool) (amp : E → Prop) : Rels → E → Prop
  | .nil, _ => False
  | .cons _ s rs, e => (∃ x, SelMeans w counts amp (some e) s x) ∨ HasMeans w counts amp rs e
end

/-- Outside of nested rules there is no `&`. -/
def noParent (_ : E) : Prop := False

/-- Every entity is an element. -/
def everyOne (_ : E) : Bool := true

/-- The elements of CSS: not `::before` and `::after`. -/
def realOnes (w : SWorld E) (e : E) : Bool := (w.data e).pseudo.isNone

/-- The hierarchy is one, the `Siblings` tell the neighbours (C20), all its entities have style data, and the roots are
known (`C90_root`). -/
structure ElementsOk (w : SWorld E) : Prop where
  sound : SoundWorld w
  styled : ∀ x p, w.forest.parent x = some p → x ∈ w.styled ∧ p ∈ w.styled
  root : ∀ x, x ∈ w.styled → ((w.data x).isRoot = true ↔ w.forest.parent x = none)

/-- A relative selector as the parser gives it: it begins with the anchor, followed by the combinator. -/
def Anchored (k : Link) : Sel → Prop
  | .subject _ => False
  | .link l k' _ => (l = .subject (.cons .anchor .nil) ∧ k' = k ∧ k ≠ .pseudo) ∨ Anchored k l

mutual
/-- No name with a bare `|` in front, `&` only if `amp`, and every relative selector as the parser gives it. -/
def SimpleOk (amp : Bool) : Simple → Prop
  | .noNamespace => False
  | .nthOf _ _ _ sels => SelsOk amp sels
  | .not sels => SelsOk amp sels
  | .is sels => SelsOk amp sels
  | .where_ sels => SelsOk amp sels
  | .parent => amp = true
  | .has rels => RelsOk amp rels
  | _ => True
/-- All parts of a compound. -/
def CompoundOk (amp : Bool) : Compound → Prop
  | .nil => True
  | .cons s c => SimpleOk amp s ∧ CompoundOk amp c
/-- All parts of a selector. -/
def SelOk (amp : Bool) : Sel → Prop
  | .subject c => CompoundOk amp c
  | .link l _ c => SelOk amp l ∧ CompoundOk amp c
/-- All of a list. -/
def SelsOk (amp : Bool) : Sels → Prop
  | .nil => True
  | .cons s ss => SelOk amp s ∧ SelsOk amp ss
/-- All of a list of relative selectors. -/
def RelsOk (amp : Bool) : Rels → Prop
  | .nil => True
  | .cons k s rs => Anchored k s ∧ SelOk amp s ∧ RelsOk amp rs
end

/-- `:is()`, `:where()` or `:not()` in the compound. -/
def NestsSels : Compound → Prop
  | .nil => False
  | .cons s c => (∃ l, s = .is l ∨ s = .where_ l ∨ s = .not l) ∨ NestsSels c

mutual
/-- Neither siblings nor children are looked at; nothing nested after a pseudo element. -/
def PlainSimple : Simple → Prop
  | .empty => False
  | .nth _ _ _ => False
  | .nthOfType _ _ _ => False
  | .nthOf _ _ _ _ => False
  | .has _ => False
  | .not sels => PlainSels sels
  | .is sels => PlainSels sels
  | .where_ sels => PlainSels sels
  | _ => True
/-- All parts of a compound. -/
def PlainCompound : Compound → Prop
  | .nil => True
  | .cons s c => PlainSimple s ∧ PlainCompound c
/-- All parts of a selector. -/
def PlainSel : Sel → Prop
  | .subject c => PlainCompound c ∧ (NamesPseudo c → ¬ NestsSels c)
  | .link l k c => PlainSel l ∧ (k ≠ .next ∧ k ≠ .later) ∧ PlainCompound c ∧ (NamesPseudo c → ¬ NestsSels c)
/-- All of a list. -/
def PlainSels : Sels → Prop
  | .nil => True
  | .cons s ss => PlainSel s ∧ PlainSels ss
end

/-- The selector ends in a pseudo element. -/
def EndsInPseudo : Sel → Prop
  | .subject c => NamesPseudo c
  | .link _ _ c => NamesPseudo c

/-- `::before` and `::after` have no children. -/
def PseudoLeaves (w : SWorld E) : Prop := ∀ x, (w.data x).pseudo ≠ none → w.forest.children x = []

/-- The pseudo classes for states, and the states they stand for. -/
inductive StateNamed : String → (PseudoState → Bool) → Prop
  | hover : StateNamed "hover" (·.hovered)
  | active : StateNamed "active" (·.pressed)
  | focus : StateNamed "focus" (·.focused)
  | focusVisible : StateNamed "focus-visible" (·.focusedAndVisible)
  | disabled : StateNamed "disabled" (·.disabled)
  | checked : StateNamed "checked" (·.checked)

/-- The parent of a node and its stored `is_root` after a pass: the node got its style data with any parent, and there
were any number of passes, with any changes of the parent before each. -/
inductive RootRun : Option E → Bool → Prop
  | styled (p : Option E) (edits : List (ParentEdit E)) (stored : Bool) :
      RootRun (edits.foldl ParentComp.edit ⟨p, false, false⟩).parent
        (calculateIsRoot true (edits.foldl ParentComp.edit ⟨p, false, false⟩) stored)
  | frame {p : Option E} {r : Bool} (edits : List (ParentEdit E)) : RootRun p r →
      RootRun (edits.foldl ParentComp.edit ⟨p, false, false⟩).parent
        (calculateIsRoot false (edits.foldl ParentComp.edit ⟨p, false, false⟩) r)

end Flair.Spec
