import Verif.Model.Selector
/-!
# Nested selectors and specificity

`CssSelector::parse_comma_separated_for_nested`, `replace_parent_selector` and `specificity`
(crates/bevy_flair_style/src/css_selector/mod.rs:301-344, 428-471, 499-501).  All three hand the work to the crate
`selectors` (0.32), which is modelled here after its source from memory: it is not part of the repository.
The specificity is stored with every selector, in three fields of 10 bits, and updated when `&` is replaced.
-/
namespace Flair.Nesting
open Flair.Selector

/-! ## Specificity (crate `selectors`, `builder.rs`) -/

/-- `Specificity`: the three counters -/
structure Counts where
  ids : Nat
  classes : Nat
  elements : Nat
deriving DecidableEq

instance : Add Counts := ⟨fun a b => ⟨a.ids + b.ids, a.classes + b.classes, a.elements + b.elements⟩⟩

/-- `impl From<Specificity> for u32`: 10 bits each, saturating -/
def pack (c : Counts) : Nat := min c.ids 1023 * 1048576 + min c.classes 1023 * 1024 + min c.elements 1023

/-- `impl From<u32> for Specificity` -/
def unpack (n : Nat) : Counts := ⟨n / 1048576, n / 1024 % 1024, n % 1024⟩

mutual
/-- `complex_selector_specificity`, one component; `&` counts nothing yet -/
def simpleCounts : Simple → Counts
  | .universal => ⟨0, 0, 0⟩
  | .anyNamespace => ⟨0, 0, 0⟩
  | .noNamespace => ⟨0, 0, 0⟩
  | .localName _ => ⟨0, 0, 1⟩
  | .id _ => ⟨1, 0, 0⟩
  | .cls _ => ⟨0, 1, 0⟩
  | .attrExists _ => ⟨0, 1, 0⟩
  | .attr _ _ _ => ⟨0, 1, 0⟩
  | .root => ⟨0, 1, 0⟩
  | .scope => ⟨0, 1, 0⟩
  | .empty => ⟨0, 1, 0⟩
  | .state _ => ⟨0, 1, 0⟩
  | .nth _ _ _ => ⟨0, 1, 0⟩
  | .nthOfType _ _ _ => ⟨0, 1, 0⟩
  | .nthOf _ _ _ sels => ⟨0, 1, 0⟩ + unpack (selsSpec sels)
  | .not sels => unpack (selsSpec sels)
  | .is sels => unpack (selsSpec sels)
  | .where_ _ => ⟨0, 0, 0⟩
  | .parent => ⟨0, 0, 0⟩
  | .has rels => unpack (relsSpec rels)
  | .anchor => ⟨0, 0, 0⟩
  | .pseudoElement _ => ⟨0, 0, 1⟩
/-- all components of a compound -/
def compoundCounts : Compound → Counts
  | .nil => ⟨0, 0, 0⟩
  | .cons s c => simpleCounts s + compoundCounts c
/-- all components of a selector -/
def selCounts : Sel → Counts
  | .subject c => compoundCounts c
  | .link l _ c => selCounts l + compoundCounts c
/-- `selector_list_specificity_and_flags`: the greatest, as numbers -/
def selsSpec : Sels → Nat
  | .nil => 0
  | .cons s ss => max (pack (selCounts s)) (selsSpec ss)
/-- `relative_selector_list_specificity_and_flags` -/
def relsSpec : Rels → Nat
  | .nil => 0
  | .cons _ s rs => max (pack (selCounts s)) (relsSpec rs)
end

/-- `Selector::specificity` of a parsed selector -/
def selSpec (s : Sel) : Nat := pack (selCounts s)

/-! ## `&` -/

mutual
/-- `SelectorFlags::HAS_PARENT` of a component -/
def simpleParent : Simple → Bool
  | .parent => true
  | .nthOf _ _ _ sels => selsParent sels
  | .not sels => selsParent sels
  | .is sels => selsParent sels
  | .where_ sels => selsParent sels
  | .has rels => relsParent rels
  | _ => false
/-- of a compound -/
def compoundParent : Compound → Bool
  | .nil => false
  | .cons s c => simpleParent s || compoundParent c
/-- `Selector::has_parent_selector` -/
def selParent : Sel → Bool
  | .subject c => compoundParent c
  | .link l _ c => selParent l || compoundParent c
/-- of one in a list -/
def selsParent : Sels → Bool
  | .nil => false
  | .cons s ss => selParent s || selsParent ss
/-- of one in a list of relative selectors -/
def relsParent : Rels → Bool
  | .nil => false
  | .cons _ s rs => selParent s || relsParent rs
end

mutual
/-- `Selector::replace_parent_selector`, one component: `&` becomes `:is(parents)`.  (The crate leaves lists without
`&` as they are: the outcome is the same.) -/
def fillSimple (ps : Sels) : Simple → Simple
  | .parent => .is ps
  | .nthOf a b fromEnd sels => .nthOf a b fromEnd (fillSels ps sels)
  | .not sels => .not (fillSels ps sels)
  | .is sels => .is (fillSels ps sels)
  | .where_ sels => .where_ (fillSels ps sels)
  | .has rels => .has (fillRels ps rels)
  | s => s
/-- in a compound -/
def fillCompound (ps : Sels) : Compound → Compound
  | .nil => .nil
  | .cons s c => .cons (fillSimple ps s) (fillCompound ps c)
/-- `Selector::replace_parent_selector` -/
def fill (ps : Sels) : Sel → Sel
  | .subject c => .subject (fillCompound ps c)
  | .link l k c => .link (fill ps l) k (fillCompound ps c)
/-- `replace_parent_on_selector_list` -/
def fillSels (ps : Sels) : Sels → Sels
  | .nil => .nil
  | .cons s ss => .cons (fill ps s) (fillSels ps ss)
/-- `replace_parent_on_relative_selector_list` -/
def fillRels (ps : Sels) : Rels → Rels
  | .nil => .nil
  | .cons k s rs => .cons k (fill ps s) (fillRels ps rs)
end

mutual
/-- What `replace_parent_selector` adds to the specificity for a component; `p`: the greatest one of the parents.  For a
list it is the difference of the numbers before and after. -/
def simpleAdds (p : Nat) : Simple → Counts
  | .parent => unpack p
  | .nthOf _ _ _ sels => if selsParent sels then unpack (selsFilled p sels - selsSpec sels) else ⟨0, 0, 0⟩
  | .not sels => if selsParent sels then unpack (selsFilled p sels - selsSpec sels) else ⟨0, 0, 0⟩
  | .is sels => if selsParent sels then unpack (selsFilled p sels - selsSpec sels) else ⟨0, 0, 0⟩
  | .has rels => if relsParent rels then unpack (relsFilled p rels - relsSpec rels) else ⟨0, 0, 0⟩
  | _ => ⟨0, 0, 0⟩
/-- for a compound -/
def compoundAdds (p : Nat) : Compound → Counts
  | .nil => ⟨0, 0, 0⟩
  | .cons s c => simpleAdds p s + compoundAdds p c
/-- for a selector -/
def selAdds (p : Nat) : Sel → Counts
  | .subject c => compoundAdds p c
  | .link l _ c => selAdds p l + compoundAdds p c
/-- the greatest specificity in a list after the replacement -/
def selsFilled (p : Nat) : Sels → Nat
  | .nil => 0
  | .cons s ss =>
    max (if selParent s then pack (unpack (pack (selCounts s)) + selAdds p s) else pack (selCounts s)) (selsFilled p ss)
/-- the same for relative selectors -/
def relsFilled (p : Nat) : Rels → Nat
  | .nil => 0
  | .cons _ s rs =>
    max (if selParent s then pack (unpack (pack (selCounts s)) + selAdds p s) else pack (selCounts s)) (relsFilled p rs)
end

/-- A `Selector` of the crate, with the specificity in its header -/
structure Compiled where
  sel : Sel
  spec : Nat

/-- A parsed selector -/
def compiled (s : Sel) : Compiled := ⟨s, selSpec s⟩

/-- The selectors of a list -/
def listOf : List Compiled → Sels
  | [] => .nil
  | c :: cs => .cons c.sel (listOf cs)

/-- The greatest specificity of a list -/
def greatest : List Compiled → Nat
  | [] => 0
  | c :: cs => max c.spec (greatest cs)

/-- `Selector::replace_parent_selector`, with the specificity; called by `CssSelector::replace_parent_selector`
(mod.rs:454-470) -/
def replaceAmp (s : Compiled) (ps : List Compiled) : Compiled :=
  if selParent s.sel then ⟨fill (listOf ps) s.sel, pack (unpack s.spec + selAdds (greatest ps) s.sel)⟩ else s

/-- Puts `& k` in front of a selector -/
def putFront (k : Link) : Sel → Sel
  | .subject c => .link (.subject (.cons .parent .nil)) k c
  | .link l k' c => .link (putFront k l) k' c

/-- `ParseRelative::ForNesting` (mod.rs:319-327): a selector that begins with a combinator gets a `&` in front, and so
does one without any `&`, with the descendant combinator. -/
def nestedSel : Option Link → Sel → Sel
  | some k, s => putFront k s
  | none, s => if selParent s then s else putFront .desc s

/-- `parse_single_for_nested("&")` (parser.rs:333, 356) -/
def ampSel : Compiled := compiled (.subject (.cons .parent .nil))

end Flair.Nesting
