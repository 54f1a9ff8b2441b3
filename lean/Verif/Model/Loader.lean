import Verif.Model.Sheet
import Verif.Model.Media
/-!
# Model of `crates/bevy_flair_css_parser/src/internal_loader.rs` and of the block structure of
`parser.rs`

The tokenizer and the value parsers (crate `cssparser` and the per-type parsers) are not modelled:
the source is the tree of rules and declarations they recognise, where any declaration, selector
list or at-rule may be an error.  The errors are taken to be reportable: a report that panics is in Model/Report (C97)
and Model/File (C82).
-/
namespace Flair.Loader
open Flair.Sheet Flair.Layers Flair.Vars Flair.Values Flair.Media

section
variable (S M C N T V X Y : Type)

/-- One item written in a rule body, as recognised by `CssRulesetBodyParser` (parser.rs:268-480):
valid declarations (a shorthand gives several), an error, a nested rule (its selectors are `none`
when they do not parse), a nested `@media` block, a nested `@layer` block. -/
inductive BodySrc where
  | decls (ds : List (SrcDecl C N T V X Y))
  | error
  | rule (sels : Option (List S)) (body : List BodySrc)
  | media (conds : List M) (body : List BodySrc)
  | layer (name : Name) (body : List BodySrc)

/-- `CssRulesetProperty` (parser.rs:34-48): one parsed item of a rule body.  `decls` stands for the
kinds of valid declarations.  `nested` is `NestedRuleset`; its selectors are `none` when they do not
parse. -/
inductive BodyItem where
  | decls (ds : List (SrcDecl C N T V X Y))
  | error
  | nested (sels : Option (List (CssSelector S M))) (body : List BodyItem)

/-- `CssStyleSheetItem` (parser.rs:72-80), without `FontFace` and `AnimationKeyFrames`. -/
inductive SheetItem where
  | embed (o : StyleSheet S M C N T V X Y) (layer : Option Name)
  | inner (is : List SheetItem)
  | layers (ls : List Name)
  | rule (sels : Option (List (CssSelector S M))) (body : List (BodyItem S M C N T V X Y))
  | error

/-- The block structure of a source, as read by `CssStyleSheetParser` (parser.rs:497-680). -/
inductive Src where
  | importSheet (o : StyleSheet S M C N T V X Y) (layer : Option Name)
  | layerStatement (ls : List Name)
  | layerBlock (names : List Name) (inner : List Src)
  | mediaBlock (conds : List M) (inner : List Src)
  | rule (sels : Option (List S)) (body : List (BodySrc S M C N T V X Y))
  | error
end

variable {S M C N T V X Y : Type} [DecidableEq N]

/-- `CssParserContext` (parser.rs:107-113): the two fields that depend on the enclosing blocks. -/
structure Context (M : Type) where
  media : List M
  layer : Name

/-- Joining layer names: parser.rs:581-587 and 625-629. -/
def joinLayer (current name : Name) : Name :=
  if current = [] then name else current ++ '.' :: name

/-- `CssRulesetBodyParser` on a rule body (parser.rs:285-406): the nested `@media` and `@layer`
blocks become nested rules for the selector `&` (`amp`); nested rules get no layer and no condition. -/
def parseBody (amp : S) : List (BodySrc S M C N T V X Y) → List (BodyItem S M C N T V X Y)
  | [] => []
  | .decls ds :: rest => .decls ds :: parseBody amp rest
  | .error :: rest => .error :: parseBody amp rest
  | .rule sels body :: rest =>
    .nested (sels.map fun ss => ss.map fun s => ⟨[], [], s⟩) (parseBody amp body) :: parseBody amp rest
  | .media conds body :: rest =>
    .nested (some [⟨[], conds, amp⟩]) (parseBody amp body) :: parseBody amp rest
  | .layer name body :: rest =>
    .nested (some [⟨name, [], amp⟩]) (parseBody amp body) :: parseBody amp rest

mutual
/-- `CssStyleSheetParser` on one item: `parse_prelude`/`parse_block`/`rule_without_block`
(parser.rs:565-680).  A `@layer` block with several names is an error (parser.rs:614-620; its
contents are skipped). -/
def parseItem (amp : S) (ctx : Context M) : Src S M C N T V X Y → SheetItem S M C N T V X Y
  | .importSheet o layer => .embed o layer
  | .layerStatement ls => .layers (ls.map (joinLayer ctx.layer))
  | .layerBlock [name] inner =>
    .inner (parseItems amp { ctx with layer := joinLayer ctx.layer name } inner)
  | .layerBlock _ _ => .error
  | .mediaBlock conds inner =>
    .inner (parseItems amp { ctx with media := mergeWith ctx.media conds } inner)
  | .rule sels body =>
    .rule (sels.map fun ss => ss.map fun s => ⟨ctx.layer, ctx.media, s⟩) (parseBody amp body)
  | .error => .error
/-- all items, in order -/
def parseItems (amp : S) (ctx : Context M) : List (Src S M C N T V X Y) →
    List (SheetItem S M C N T V X Y)
  | [] => []
  | i :: is => parseItem amp ctx i :: parseItems amp ctx is
end

/-- `CssSelector::replace_parent_selector` (css_selector/mod.rs:441-474).  `rp` is the function of
the crate `selectors`.  Panics (index 0) without parent: never called so, see `processBody`; the
default values are then irrelevant. -/
def replaceParent (rp : S → List S → S) (parents : List (CssSelector S M)) (s : CssSelector S M) :
    CssSelector S M :=
  let parentMedia := (parents.head?.map (·.media)).getD []
  let parentLayer := (parents.head?.map (·.layer)).getD []
  { layer :=
      if parentLayer = [] then s.layer
      else if s.layer = [] then parentLayer
      else parentLayer ++ '.' :: s.layer
    media := mergeWith parentMedia s.media
    selector := rp s.selector (parents.map (·.selector)) }

/-- `report_property_errors_recursively` (internal_loader.rs:97-115): the number of errors. -/
def reportErrors : List (BodyItem S M C N T V X Y) → Nat
  | [] => 0
  | .decls _ :: rest => reportErrors rest
  | .error :: rest => 1 + reportErrors rest
  | .nested sels body :: rest =>
    (if sels.isNone then 1 else 0) + reportErrors body + reportErrors rest

/-- The loop over the properties in `process_ruleset_recursively` (internal_loader.rs:137-160), with
the recursive call (117-170) inlined.  `id` is the ruleset of `ruleset_builder`; the state is the
builder and the number of reported errors.  `none` is a panic. -/
def processBody (rp : S → List S → S) (sels : List (CssSelector S M)) :
    List (BodyItem S M C N T V X Y) → Nat → Builder S M C N T V X Y × Nat →
    Option (Builder S M C N T V X Y × Nat)
  | [], _, st => some st
  | .decls ds :: rest, id, (b, e) =>
    processBody rp sels rest id (ds.foldl (fun b d => b.modify id (fun x => x.addDecl d)) b, e)
  | .error :: rest, id, (b, e) => processBody rp sels rest id (b, e + 1)
  | .nested none body :: rest, _, (b, e) =>
    let (b1, id1) := b.newRuleset
    (b1.addCssSelectors id1 sels).bind fun b2 =>
      processBody rp sels rest id1 (b2, e + 1 + reportErrors body)
  | .nested (some ss) body :: rest, _, (b, e) =>
    let ss' := ss.map (replaceParent rp sels)
    let (b1, id1) := b.newRuleset
    (b1.addCssSelectors id1 ss').bind fun b2 =>
      (processBody rp ss' body id1 (b2, e)).bind fun (b3, e3) =>
        let (b4, id4) := b3.newRuleset
        (b4.addCssSelectors id4 sels).bind fun b5 =>
          processBody rp sels rest id4 (b5, e3)

/-- `process_ruleset_recursively` (internal_loader.rs:117-170) for a top level rule
(`parent_selectors = None`). -/
def processRuleset (rp : S → List S → S) (sels : Option (List (CssSelector S M)))
    (body : List (BodyItem S M C N T V X Y)) (st : Builder S M C N T V X Y × Nat) :
    Option (Builder S M C N T V X Y × Nat) :=
  match sels with
  | none => some (st.1, st.2 + 1 + reportErrors body)
  | some ss =>
    let (b1, id1) := st.1.newRuleset
    (b1.addCssSelectors id1 ss).bind fun b2 => processBody rp ss body id1 (b2, st.2)

mutual
/-- `processor` (internal_loader.rs:167-188, 280-283). -/
def process (rp : S → List S → S) : SheetItem S M C N T V X Y → Builder S M C N T V X Y × Nat →
    Option (Builder S M C N T V X Y × Nat)
  | .embed o layer, (b, e) => (b.embed o layer).map fun b => (b, e)
  | .inner is, st => processAll rp is st
  | .layers ls, (b, e) => (b.defineLayers ls).map fun b => (b, e)
  | .rule sels body, st => processRuleset rp sels body st
  | .error, (b, e) => some (b, e + 1)
/-- the loop of `parse_css` / of `Inner` -/
def processAll (rp : S → List S → S) : List (SheetItem S M C N T V X Y) →
    Builder S M C N T V X Y × Nat → Option (Builder S M C N T V X Y × Nat)
  | [], st => some st
  | i :: is, st => (process rp i st).bind (processAll rp is)
end

/-- `CssStyleLoaderErrorMode` (loader.rs:47-57). -/
inductive ErrorMode where
  | printWarn | printError | ignore | returnError
deriving DecidableEq

/-- `InternalStylesheetLoader::load_stylesheet` (internal_loader.rs:88-327).  Outer `none`: panic;
inner `none`: `Err(CssStyleLoaderError::Report)`. -/
def loadStylesheet (rp : S → List S → S) (amp : S) (mode : ErrorMode) (src : List (Src S M C N T V X Y)) :
    Option (Option (Builder S M C N T V X Y)) :=
  (processAll rp (parseItems amp ⟨[], []⟩ src) (Builder.new, 0)).bind fun (b, e) =>
    if e > 0 ∧ mode = .returnError then some none
    else b.removeAllEmpty.map some

end Flair.Loader
