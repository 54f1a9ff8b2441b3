import Verif.Spec.Selector
import Verif.Spec.Cascade
import Verif.Model.Nesting
import Verif.Model.Loader
/-!
# Specification of nested rules and of specificity

After CSS Nesting and Selectors 4.  From the model: the syntax of selectors and of sources, not how `&` is replaced nor how
specificities are stored.
-/
namespace Flair.Spec
open Flair.Tree Flair.Selector Flair.Nesting Flair.Sheet Flair.Loader
variable {E M C N T V X Y : Type}

/-! ## Specificity -/

/-- A specificity: how many ids, how many classes, attributes and pseudo classes, how many types and pseudo elements -/
structure Weight where
  ids : Nat
  classes : Nat
  types : Nat
deriving DecidableEq

/-- Both together -/
def Weight.plus (a b : Weight) : Weight := ⟨a.ids + b.ids, a.classes + b.classes, a.types + b.types⟩

/-- `a` is less specific than `b`: the ids decide, then the classes, then the types. -/
def Weight.Less (a b : Weight) : Prop :=
  a.ids < b.ids ∨ (a.ids = b.ids ∧ (a.classes < b.classes ∨ (a.classes = b.classes ∧ a.types < b.types)))

instance (a b : Weight) : Decidable (a.Less b) := by unfold Weight.Less; infer_instance

/-- The most specific of two -/
def Weight.most (a b : Weight) : Weight := if a.Less b then b else a

/-- Nothing -/
def Weight.zero : Weight := ⟨0, 0, 0⟩

/-- The most specific of a list -/
def heaviest : List Weight → Weight
  | [] => .zero
  | a :: l => a.most (heaviest l)

mutual
/-- The specificity of a simple selector; `amp`: that of `&`. -/
def simpleWeight (amp : Weight) : Simple → Weight
  | .universal => .zero
  | .anyNamespace => .zero
  | .noNamespace => .zero
  | .anchor => .zero
  | .localName _ => ⟨0, 0, 1⟩
  | .pseudoElement _ => ⟨0, 0, 1⟩
  | .id _ => ⟨1, 0, 0⟩
  | .cls _ => ⟨0, 1, 0⟩
  | .attrExists _ => ⟨0, 1, 0⟩
  | .attr _ _ _ => ⟨0, 1, 0⟩
  | .root => ⟨0, 1, 0⟩
  | .scope => ⟨0, 1, 0⟩
  | .empty => ⟨0, 1, 0⟩
  | .state _ => ⟨0, 1, 0⟩
  | .nth _ _ _ => ⟨0, 1, 0⟩
  | .nthOfType _ _ _ => ⟨0, 1, 0⟩
  | .nthOf _ _ _ sels => .plus ⟨0, 1, 0⟩ (selsWeight amp sels)
  | .not sels => selsWeight amp sels
  | .is sels => selsWeight amp sels
  | .where_ _ => .zero
  | .has rels => relsWeight amp rels
  | .parent => amp
/-- The parts of a compound together -/
def compoundWeight (amp : Weight) : Compound → Weight
  | .nil => .zero
  | .cons s c => .plus (simpleWeight amp s) (compoundWeight amp c)
/-- The compounds of a selector together -/
def selWeight (amp : Weight) : Sel → Weight
  | .subject c => compoundWeight amp c
  | .link l _ c => .plus (selWeight amp l) (compoundWeight amp c)
/-- The most specific one of a list -/
def selsWeight (amp : Weight) : Sels → Weight
  | .nil => .zero
  | .cons s ss => .most (selWeight amp s) (selsWeight amp ss)
/-- The most specific one of a list of relative selectors -/
def relsWeight (amp : Weight) : Rels → Weight
  | .nil => .zero
  | .cons _ s rs => .most (selWeight amp s) (relsWeight amp rs)
end

/-- Less than 1024 of each -/
def Weight.Small (a : Weight) : Prop := a.ids < 1024 ∧ a.classes < 1024 ∧ a.types < 1024

/-- A small specificity as one number -/
def Weight.number (a : Weight) : Nat := a.ids * 1048576 + a.classes * 1024 + a.types

/-! ## Nested selectors -/

/-- `e` is as a relative selector says that begins with the combinator `k`, seen from an element for which `P`. -/
def RelMeans [DecidableEq E] (w : SWorld E) (counts : E → Bool) (P : E → Prop) (k : Link) : Sel → E → Prop
  | .subject c, e => ((counts e = true ∨ NamesPseudo c) ∧ CompoundMeans w counts P none c e) ∧
      ∃ x, Linked w counts e x k ∧ counts x = true ∧ P x
  | .link l k' c, e => ((counts e = true ∨ NamesPseudo c) ∧ CompoundMeans w counts P none c e) ∧
      ∃ x, Linked w counts e x k' ∧ RelMeans w counts P k l x

/-- A selector of a rule: the elements it selects, and its specificity -/
structure Aim (E : Type) where
  picks : E → Prop
  weight : Weight

/-- A selector of a rule inside of a rule with these selectors: `&` stands for all the elements they select, and is as
specific as the most specific of them. -/
def aim [DecidableEq E] (w : SWorld E) (counts : E → Bool) (outer : List (Aim E)) (s : Sel) : Aim E :=
  ⟨SelMeans w counts (fun e => ∃ p ∈ outer, p.picks e) none s, selWeight (heaviest (outer.map (·.weight))) s⟩

/-- A declaration with all that decides for which elements it is: layer, media conditions, selectors -/
structure Meant (E M C N T V X Y : Type) where
  layer : List Char
  media : List M
  aims : List (Aim E)
  decl : SrcDecl C N T V X Y

/-- The declarations of a rule body in the order in which they are written.  A nested `@media` or `@layer` adds its
condition or layer, and leaves the selectors as they are. -/
def bodyMeant [DecidableEq E] (w : SWorld E) (counts : E → Bool) (layer : List Char) (media : List M)
    (rs : List (Aim E)) : List (BodySrc Compiled M C N T V X Y) → List (Meant E M C N T V X Y)
  | [] => []
  | .decls ds :: rest => ds.map (fun d => ⟨layer, media, rs, d⟩) ++ bodyMeant w counts layer media rs rest
  | .error :: rest => bodyMeant w counts layer media rs rest
  | .rule none _ :: rest => bodyMeant w counts layer media rs rest
  | .rule (some ss) body :: rest =>
    bodyMeant w counts layer media (ss.map fun s => aim w counts rs s.sel) body ++ bodyMeant w counts layer media rs rest
  | .media conds body :: rest =>
    bodyMeant w counts layer (media ++ conds) rs body ++ bodyMeant w counts layer media rs rest
  | .layer name body :: rest =>
    bodyMeant w counts (nestName layer name) media rs body ++ bodyMeant w counts layer media rs rest

/-- The declarations of a source in the order in which they are written -/
def docMeant [DecidableEq E] (w : SWorld E) (counts : E → Bool) (layer : List Char) (media : List M) :
    List (Src Compiled M C N T V X Y) → List (Meant E M C N T V X Y)
  | [] => []
  | .layerBlock [name] inner :: rest =>
    docMeant w counts (nestName layer name) media inner ++ docMeant w counts layer media rest
  | .mediaBlock conds inner :: rest =>
    docMeant w counts layer (media ++ conds) inner ++ docMeant w counts layer media rest
  | .rule (some ss) body :: rest =>
    bodyMeant w counts layer media (ss.map fun s => aim w counts [] s.sel) body ++ docMeant w counts layer media rest
  | _ :: rest => docMeant w counts layer media rest

/-! ## What is expected of a source -/

mutual
/-- No `&` in a list of selectors. -/
def FlatSimple : Simple → Prop
  | .nthOf _ _ _ sels => selsParent sels = false
  | .not sels => selsParent sels = false
  | .is sels => selsParent sels = false
  | .where_ _ => True
  | .has rels => relsParent rels = false
  | _ => True
/-- in a compound -/
def FlatCompound : Compound → Prop
  | .nil => True
  | .cons s c => FlatSimple s ∧ FlatCompound c
end

@[inherit_doc FlatSimple] def FlatSel : Sel → Prop
  | .subject c => FlatCompound c
  | .link l _ c => FlatSel l ∧ FlatCompound c

mutual
/-- No anchor outside of `:has()` -/
def FreeSimple : Simple → Prop
  | .anchor => False
  | .nthOf _ _ _ sels => FreeSels sels
  | .not sels => FreeSels sels
  | .is sels => FreeSels sels
  | .where_ sels => FreeSels sels
  | _ => True
/-- in a compound -/
def FreeCompound : Compound → Prop
  | .nil => True
  | .cons s c => FreeSimple s ∧ FreeCompound c
/-- in a selector -/
def FreeSel : Sel → Prop
  | .subject c => FreeCompound c
  | .link l _ c => FreeSel l ∧ FreeCompound c
/-- in a list -/
def FreeSels : Sels → Prop
  | .nil => True
  | .cons s ss => FreeSel s ∧ FreeSels ss
end

/-- A selector as the parser gives it: with its specificity; no bare `|`; the anchor only in `:has()`; with `&` only in
nested rules, and not inside of `:is()`, `:not()`, `:has()` or `:nth-child()`. -/
def SelectorOk (nested : Bool) (s : Compiled) : Prop :=
  s = compiled s.sel ∧ SelOk nested s.sel ∧ FlatSel s.sel ∧ FreeSel s.sel

/-- The selectors of a rule are equally specific. -/
def SameWeights (rs : List (Aim E)) : Prop := ∀ a ∈ rs, ∀ b ∈ rs, a.weight = b.weight

/-- What is expected of a rule body: the selectors are as the parser gives them, the specificities below 1024; a rule with
nested `@media` or `@layer` blocks has equally specific selectors. -/
def BodyOk [DecidableEq E] (w : SWorld E) (counts : E → Bool) (rs : List (Aim E)) :
    List (BodySrc Compiled M C N T V X Y) → Prop
  | [] => True
  | .decls _ :: rest => BodyOk w counts rs rest
  | .error :: rest => BodyOk w counts rs rest
  | .rule none _ :: rest => BodyOk w counts rs rest
  | .rule (some ss) body :: rest => ((∀ s ∈ ss, SelectorOk true s ∧ (aim w counts rs s.sel).weight.Small) ∧ ss ≠ []) ∧
      BodyOk w counts (ss.map fun s => aim w counts rs s.sel) body ∧ BodyOk w counts rs rest
  | .media _ body :: rest => SameWeights rs ∧ BodyOk w counts rs body ∧ BodyOk w counts rs rest
  | .layer _ body :: rest => SameWeights rs ∧ BodyOk w counts rs body ∧ BodyOk w counts rs rest

/-- What is expected of a source -/
def SourceOk [DecidableEq E] (w : SWorld E) (counts : E → Bool) : List (Src Compiled M C N T V X Y) → Prop
  | [] => True
  | .layerBlock _ inner :: rest => SourceOk w counts inner ∧ SourceOk w counts rest
  | .mediaBlock _ inner :: rest => SourceOk w counts inner ∧ SourceOk w counts rest
  | .rule (some ss) body :: rest => ((∀ s ∈ ss, SelectorOk false s ∧ (aim w counts [] s.sel).weight.Small) ∧ ss ≠ []) ∧
      BodyOk w counts (ss.map fun s => aim w counts [] s.sel) body ∧ SourceOk w counts rest
  | _ :: rest => SourceOk w counts rest

/-- The rule `r` is for the elements and as specific as meant: the same declaration, layer and conditions; for every
element with style data, the specificities of its selectors that match are those of the selectors that select it. -/
structure AsMeant [DecidableEq E] (w : SWorld E) (r : SrcRule Compiled M C N T V X Y) (m : Meant E M C N T V X Y) :
    Prop where
  decl : r.decls = [m.decl]
  place : ∀ s ∈ r.selectors, s.layer = m.layer ∧ s.media = m.media
  safe : ∀ e ∈ w.styled, ∀ s ∈ r.selectors, matchesSelector w s.selector.sel e ≠ none
  same : ∀ e ∈ w.styled, ∀ n, (∃ s ∈ r.selectors, matchesSelector w s.selector.sel e = some true ∧ s.selector.spec = n) ↔
    ∃ q ∈ m.aims, q.picks e ∧ q.weight.number = n

end Flair.Spec
