import Verif.Model.Layers
import Verif.Model.Vars
import Verif.Model.Values
/-!
# Model of `crates/bevy_flair_style/src/builder.rs`, `style_sheet.rs` and of the data part of
`css_selector/mod.rs`

Type parameters: `S` compiled selectors (crate `selectors`), `M` media conditions, `C` canonical
property names, `N` variable names, `T` tokens, `V` values, `X`/`Y` transition/animation
declarations.  A Rust panic is the value `none`.
-/
namespace Flair.Sheet
open Flair.Layers Flair.Vars Flair.Values

/-- `CssSelector` (css_selector/mod.rs:281-286). -/
structure CssSelector (S M : Type) where
  layer : Name
  media : List M
  selector : S
deriving DecidableEq, Repr

/-- `CssSelector::with_layer_prefixed` (css_selector/mod.rs:390-406).  The `debug_assert!` is not
modelled. -/
def CssSelector.withLayerPrefixed {S M} (s : CssSelector S M) : Option Name → CssSelector S M
  | none => s
  | some p => { s with layer := if s.layer = [] then p else p ++ '.' :: s.layer }

/-- `ComponentPropertyRef` (core registry): an id or a canonical name. -/
inductive PropRef (C : Type) where
  | id (n : Nat)
  | canonical (c : C)
deriving DecidableEq, Repr

/-- `PropertyRegistry::resolve` (core registry.rs:207-221). -/
def resolveRef {C} (names : C → Option Nat) : PropRef C → Option Nat
  | .id n => some n
  | .canonical c => names c

/-- `DynamicParseVarTokens` (style_sheet.rs:38-45): `none` is a parse error. -/
abbrev DynParser (C T V : Type) := List T → Option (List (PropRef C × PropertyValue V))

/-- `StyleBuilderProperty` (builder.rs:78-95). `css_name` is only used in messages. -/
inductive BProp (C N T V : Type) where
  | specific (r : PropRef C) (v : PropertyValue V)
  | dynamic (parser : DynParser C T V) (tokens : VarTokens N T)

/-- `RulesetProperty` (style_sheet.rs:47-58). -/
inductive RProp (C N T V : Type) where
  | specific (id : Nat) (v : PropertyValue V)
  | dynamic (parser : DynParser C T V) (tokens : VarTokens N T)

/-- A `FxHashMap`, as the list of its entries. -/
abbrev HMap (K W : Type) := List (K × W)

/-- `HashMap::insert`. -/
def HMap.insert {K W} [DecidableEq K] (m : HMap K W) (k : K) (w : W) : HMap K W :=
  m.filter (fun e => e.1 ≠ k) ++ [(k, w)]

/-- `HashMap::get`. -/
def HMap.get? {K W} [DecidableEq K] (m : HMap K W) (k : K) : Option W :=
  (m.find? (fun e => e.1 = k)).map (·.2)

/-- `HashMap::extend`: inserts the given entries one after the other. -/
def HMap.extend {K W} [DecidableEq K] (m : HMap K W) (es : List (K × W)) : HMap K W :=
  es.foldl (fun m e => m.insert e.1 e.2) m

/-- `InternalStyleSheetBuilderRuleset` (builder.rs:344-350), with `P` the kind of properties;
`Ruleset` (style_sheet.rs:114-119) has the same fields. -/
structure Ruleset (P N T X Y : Type) where
  vars : HMap N (VarTokens N T)
  properties : List P
  transitions : List X
  animations : List Y

/-- `InternalStyleSheetBuilderRuleset::default()`. -/
def Ruleset.empty {P N T X Y : Type} : Ruleset P N T X Y := ⟨[], [], [], []⟩

/-- `InternalStyleSheetBuilderRuleset::is_empty` (builder.rs:353-358). -/
def Ruleset.isEmpty {P N T X Y : Type} (r : Ruleset P N T X Y) : Bool :=
  r.vars.isEmpty && r.properties.isEmpty && r.transitions.isEmpty && r.animations.isEmpty

section
variable (S M C N T V X Y : Type)

/-- `StyleSheetBuilder` (builder.rs:388-394).  Font faces and keyframes are in other modules
(they are independent vectors). -/
structure Builder where
  layers : List Name
  rulesets : List (Ruleset (BProp C N T V) N T X Y)
  selectors : List (CssSelector S M × Nat)

/-- `StyleSheet` (style_sheet.rs:162-169), without fonts and keyframes. -/
structure StyleSheet where
  rulesets : List (Ruleset (RProp C N T V) N T X Y)
  selectors : List (CssSelector S M × Nat)
end

variable {S M C N T V X Y : Type} [DecidableEq N]

/-- `StyleSheetBuilder::new` (builder.rs:398-400). -/
def Builder.new : Builder S M C N T V X Y := ⟨[], [], []⟩

/-- `StyleSheetBuilder::define_layers` (builder.rs:411-415). -/
def Builder.defineLayers (b : Builder S M C N T V X Y) (ls : List Name) :
    Option (Builder S M C N T V X Y) :=
  (ls.foldlM defineLayer b.layers).map fun l => { b with layers := l }

/-- `StyleSheetBuilder::new_ruleset` (builder.rs:534-545); the id is the old length. -/
def Builder.newRuleset (b : Builder S M C N T V X Y) : Builder S M C N T V X Y × Nat :=
  ({ b with rulesets := b.rulesets ++ [Ruleset.empty] }, b.rulesets.length)

/-- `StyleSheetRulesetBuilder::add_css_selector` (builder.rs:326-331). -/
def Builder.addCssSelector (b : Builder S M C N T V X Y) (id : Nat) (s : CssSelector S M) :
    Option (Builder S M C N T V X Y) :=
  (defineLayer b.layers s.layer).map fun l =>
    { b with layers := l, selectors := b.selectors ++ [(s, id)] }

/-- Writing through `ruleset: &mut rulesets[id]` (builder.rs:540-545, 548-558). -/
def Builder.modify (b : Builder S M C N T V X Y) (id : Nat)
    (f : Ruleset (BProp C N T V) N T X Y → Ruleset (BProp C N T V) N T X Y) :
    Builder S M C N T V X Y :=
  { b with rulesets := b.rulesets.modify id f }

/-- `add_property` (builder.rs:241-243). -/
def Ruleset.addProperty {P} (r : Ruleset P N T X Y) (p : P) : Ruleset P N T X Y :=
  { r with properties := r.properties ++ [p] }

/-- `add_var` (builder.rs:245-250). -/
def Ruleset.addVar {P} (r : Ruleset P N T X Y) (n : N) (t : VarTokens N T) : Ruleset P N T X Y :=
  { r with vars := r.vars.insert n t }

/-- `add_transition_property` (builder.rs:252-257). -/
def Ruleset.addTransition {P} (r : Ruleset P N T X Y) (x : X) : Ruleset P N T X Y :=
  { r with transitions := r.transitions ++ [x] }

/-- `add_animation_property` (builder.rs:259-261). -/
def Ruleset.addAnimation {P} (r : Ruleset P N T X Y) (y : Y) : Ruleset P N T X Y :=
  { r with animations := r.animations ++ [y] }

/-- `From<RulesetProperty> for StyleBuilderProperty` (builder.rs:135-152). -/
def RProp.toBProp : RProp C N T V → BProp C N T V
  | .specific id v => .specific (.id id) v
  | .dynamic p t => .dynamic p t

/-- `StyleSheetRulesetBuilder::add_values_from_ruleset` (builder.rs:311-323). -/
def Ruleset.addValuesFrom (r : Ruleset (BProp C N T V) N T X Y) (o : Ruleset (RProp C N T V) N T X Y) :
    Ruleset (BProp C N T V) N T X Y :=
  { vars := r.vars.extend o.vars
    properties := r.properties ++ o.properties.map RProp.toBProp
    transitions := r.transitions ++ o.transitions
    animations := r.animations ++ o.animations }

/-- Adding several selectors to the ruleset `id`, one after the other. -/
def Builder.addCssSelectors (b : Builder S M C N T V X Y) (id : Nat) (ss : List (CssSelector S M)) :
    Option (Builder S M C N T V X Y) :=
  ss.foldlM (fun b s => b.addCssSelector id s) b

/-- `StyleSheetBuilder::embed_style_sheet` (builder.rs:418-440). -/
def Builder.embed (b : Builder S M C N T V X Y) (o : StyleSheet S M C N T V X Y)
    (layer : Option Name) : Option (Builder S M C N T V X Y) :=
  o.rulesets.zipIdx.foldlM (fun b (r : _ × Nat) =>
    let (b1, id) := b.newRuleset
    let b2 := b1.modify id (fun x => x.addValuesFrom r.1)
    b2.addCssSelectors id
      ((o.selectors.filter (fun s => s.2 = r.2)).map (fun s => s.1.withLayerPrefixed layer))) b

/-- `StyleSheetBuilder::remove_id` (builder.rs:560-576); `none` is the `assert!`. -/
def Builder.removeId (b : Builder S M C N T V X Y) (id : Nat) : Option (Builder S M C N T V X Y) :=
  if id < b.rulesets.length then
    some { b with
      rulesets := b.rulesets.eraseIdx id
      selectors := (b.selectors.filter (fun s => s.2 ≠ id)).map
        (fun s => if s.2 > id then (s.1, s.2 - 1) else s) }
  else none

/-- The `while i < self.rulesets.len()` loop of `remove_all_empty_rulesets` (builder.rs:579-588). -/
def Builder.removeEmptyFrom (b : Builder S M C N T V X Y) (i : Nat) :
    Option (Builder S M C N T V X Y) :=
  if h : i < b.rulesets.length then
    if (b.rulesets[i]).isEmpty then
      match h' : b.removeId i with
      | none => none
      | some b' => b'.removeEmptyFrom i
    else b.removeEmptyFrom (i + 1)
  else some b
termination_by b.rulesets.length - i
decreasing_by
  · unfold Builder.removeId at h'
    rw [if_pos h] at h'
    cases h'
    simp only [List.length_eraseIdx_of_lt h]
    omega
  · omega

/-- `StyleSheetBuilder::remove_all_empty_rulesets` (builder.rs:579-588). -/
def Builder.removeAllEmpty (b : Builder S M C N T V X Y) : Option (Builder S M C N T V X Y) :=
  b.removeEmptyFrom 0

/-- `StyleBuilderProperty::resolve` (builder.rs:110-132); `none` is `CanonicalNameNotFoundError`. -/
def BProp.resolve (names : C → Option Nat) : BProp C N T V → Option (RProp C N T V)
  | .specific r v => (resolveRef names r).map fun id => .specific id v
  | .dynamic p t => some (.dynamic p t)

/-- `InternalStyleSheetBuilderRuleset::resolve` (builder.rs:360-382). -/
def Ruleset.resolve (names : C → Option Nat) (r : Ruleset (BProp C N T V) N T X Y) :
    Option (Ruleset (RProp C N T V) N T X Y) :=
  (r.properties.mapM (BProp.resolve names)).map fun ps =>
    { vars := r.vars, properties := ps, transitions := r.transitions, animations := r.animations }

/-- The errors of `build` (builder.rs:28-56). -/
inductive BuildError where
  | orphanRuleset (id : Nat)
  | canonicalNameNotFound
  | invalidProperty (id : Nat)
deriving DecidableEq, Repr

/-- `validate_no_orphan_rule` (builder.rs:504-521): the first ruleset without selector. -/
def Builder.firstOrphan (b : Builder S M C N T V X Y) : Option Nat :=
  (List.range b.rulesets.length).find? (fun id => !b.selectors.any (fun s => s.2 = id))

/-- `validate_all_properties` (builder.rs:442-502); `typeOk id v` says that the value has the type
of the property.  The result is the first offending property. -/
def validateProps (typeOk : Nat → V → Bool) (rs : List (Ruleset (RProp C N T V) N T X Y)) :
    Option Nat :=
  (rs.flatMap (·.properties)).findSome? fun p =>
    match p with
    | .specific id (.value v) => if typeOk id v then none else some id
    | _ => none

/-- The comparison of `sort_by` in `build` (builder.rs:660-666): layer priority, then specificity.
(`build` panics when a priority does not exist, see there: the `getD` is never used.) -/
def selectorLe (layers : List Name) (spec : S → Nat) (a b : CssSelector S M × Nat) : Bool :=
  let i := (priority layers a.1.layer).getD 0
  let j := (priority layers b.1.layer).getD 0
  i < j || (i == j && spec a.1.selector ≤ spec b.1.selector)

/-- `resolve_placeholders` (builder.rs:590-628): `ph` replaces a directly given value that is a
placeholder (by the resolved value, or by `PropertyValue::None` when it cannot be resolved). -/
def BProp.placeholder (ph : V → PropertyValue V) : BProp C N T V → BProp C N T V
  | .specific r (.value v) => .specific r (ph v)
  | p => p

/-- `StyleSheetBuilder::build` (builder.rs:631-689).  `none` is the panic of `get_layer_priority`
on an undeclared layer (the model panics if any selector has one; the code only if it is compared).
The stable sort is `List.mergeSort`.  Font faces are not modelled. -/
def Builder.build (names : C → Option Nat) (typeOk : Nat → V → Bool) (spec : S → Nat)
    (ph : V → PropertyValue V) (b : Builder S M C N T V X Y) :
    Option (Except BuildError (StyleSheet S M C N T V X Y)) :=
  match b.firstOrphan with
  | some id => some (.error (.orphanRuleset id))
  | none =>
    if b.selectors.any (fun s => (priority b.layers s.1.layer).isNone) then none
    else
      let selectors := b.selectors.mergeSort (selectorLe b.layers spec)
      let placed := b.rulesets.map fun r =>
        { r with properties := r.properties.map (BProp.placeholder ph) }
      match placed.mapM (Ruleset.resolve names) with
      | none => some (.error .canonicalNameNotFound)
      | some rulesets =>
        match validateProps typeOk rulesets with
        | some id => some (.error (.invalidProperty id))
        | none => some (.ok { rulesets, selectors })

/-- `StyleSheet::get_matching_ruleset_ids_for_element` (style_sheet.rs:294-309); `matches` is
`matches_selector(element) && matches_media_selector(provider)`. -/
def StyleSheet.matchingIds (sh : StyleSheet S M C N T V X Y) (isMatch : CssSelector S M → Bool) :
    List Nat :=
  sh.selectors.filterMap fun s => if isMatch s.1 then some s.2 else none

/-- `StyleSheet::resolve_rulesets` (style_sheet.rs:182-191); `none` is the `unwrap` of a missing
ruleset. -/
def StyleSheet.resolveRulesets (sh : StyleSheet S M C N T V X Y) (ids : List Nat)
    (inline : Option (Ruleset (RProp C N T V) N T X Y)) :
    Option (List (Ruleset (RProp C N T V) N T X Y)) :=
  (ids.mapM fun id => sh.rulesets[id]?).map fun rs => rs ++ inline.toList

/-- `PropertyMap::set_if_neq` seen as an update of a total map (C18 shows that it is one). -/
def setIfNeq [DecidableEq V] (m : Nat → PropertyValue V) (id : Nat) (v : PropertyValue V) :
    Nat → PropertyValue V :=
  if m id = v then m else fun i => if i = id then v else m i

/-- `RulesetProperty::resolve` (style_sheet.rs:61-101) with `get_property_values`'s callback
`output.set_if_neq`; `none` is the `expect` on an unknown canonical name. -/
def RProp.apply [DecidableEq V] (names : C → Option Nat) (env : N → Option (VarTokens N T))
    (out : Nat → PropertyValue V) : RProp C N T V → Option (Nat → PropertyValue V)
  | .specific id v => some (setIfNeq out id v)
  | .dynamic parser tokens =>
    match Vars.resolve env tokens with
    | .error _ => some out
    | .ok toks =>
      match parser toks with
      | none => some out
      | some vals =>
        vals.foldlM (fun out (rv : PropRef C × PropertyValue V) =>
          (resolveRef names rv.1).map fun id => setIfNeq out id rv.2) out

/-- `StyleSheet::get_property_values` (style_sheet.rs:194-209). -/
def StyleSheet.getPropertyValues [DecidableEq V] (sh : StyleSheet S M C N T V X Y)
    (names : C → Option Nat) (env : N → Option (VarTokens N T)) (ids : List Nat)
    (inline : Option (Ruleset (RProp C N T V) N T X Y)) (out : Nat → PropertyValue V) :
    Option (Nat → PropertyValue V) :=
  (sh.resolveRulesets ids inline).bind fun rs =>
    rs.foldlM (fun out r => r.properties.foldlM (fun out p => p.apply names env out) out) out

/-- `StyleSheet::get_vars` (style_sheet.rs:212-228). -/
def StyleSheet.getVars (sh : StyleSheet S M C N T V X Y) (ids : List Nat)
    (inline : Option (Ruleset (RProp C N T V) N T X Y)) : Option (HMap N (VarTokens N T)) :=
  (sh.resolveRulesets ids inline).map fun rs =>
    rs.foldl (fun m r => m.extend r.vars) []

/-- The transition declarations `StyleSheet::resolve_transition_options` (style_sheet.rs:230-245) goes through, in
its order (what it does with them is in `Flair.AnimProps`). -/
def StyleSheet.getTransitions (sh : StyleSheet S M C N T V X Y) (ids : List Nat)
    (inline : Option (Ruleset (RProp C N T V) N T X Y)) : Option (List X) :=
  (sh.resolveRulesets ids inline).map fun rs => rs.flatMap (·.transitions)

/-- The animation declarations `StyleSheet::resolve_animation_configs` (style_sheet.rs:276-290) goes through, in its
order. -/
def StyleSheet.getAnimations (sh : StyleSheet S M C N T V X Y) (ids : List Nat)
    (inline : Option (Ruleset (RProp C N T V) N T X Y)) : Option (List Y) :=
  (sh.resolveRulesets ids inline).map fun rs => rs.flatMap (·.animations)

/-! ## Client calls: what a loader or a user does with the builders -/

/-- One declaration in a rule body, given to a ruleset builder (the calls of
`process_ruleset_property`, css_parser/internal_loader.rs:43-84). -/
inductive SrcDecl (C N T V X Y : Type) where
  | prop (p : BProp C N T V)
  | var (n : N) (t : VarTokens N T)
  | transition (x : X)
  | animation (y : Y)

/-- The `RulesetBuilder` call for one declaration (builder.rs:241-261). -/
def Ruleset.addDecl (r : Ruleset (BProp C N T V) N T X Y) :
    SrcDecl C N T V X Y → Ruleset (BProp C N T V) N T X Y
  | .prop p => r.addProperty p
  | .var n t => r.addVar n t
  | .transition x => r.addTransition x
  | .animation y => r.addAnimation y

/-- A flat rule: selectors and declarations. -/
structure SrcRule (S M C N T V X Y : Type) where
  selectors : List (CssSelector S M)
  decls : List (SrcDecl C N T V X Y)

/-- `new_ruleset`, `add_css_selector` for each selector, then the declarations in order
(internal_loader.rs:121-160 for a rule without nested rules). -/
def Builder.addRule (b : Builder S M C N T V X Y) (r : SrcRule S M C N T V X Y) :
    Option (Builder S M C N T V X Y) :=
  let (b1, id) := b.newRuleset
  (b1.addCssSelectors id r.selectors).map fun b2 =>
    r.decls.foldl (fun b d => b.modify id (fun x => x.addDecl d)) b2

/-- A flat source: `@layer` statements and rules. -/
inductive Item (S M C N T V X Y : Type) where
  | layers (ls : List Name)
  | rule (r : SrcRule S M C N T V X Y)

/-- The builder calls for one item (internal_loader.rs:168-190). -/
def Builder.addItem (b : Builder S M C N T V X Y) : Item S M C N T V X Y →
    Option (Builder S M C N T V X Y)
  | .layers ls => b.defineLayers ls
  | .rule r => b.addRule r

/-- All the calls of a source, in order. -/
def Builder.addItems (b : Builder S M C N T V X Y) (is : List (Item S M C N T V X Y)) :
    Option (Builder S M C N T V X Y) :=
  is.foldlM Builder.addItem b

/-- `SingleRulesetBuilder` (builder.rs:268-298), as used for inline styles: the declarations are
added to an empty ruleset, then `build`; `none` is `CanonicalNameNotFoundError`. -/
def singleRuleset (names : C → Option Nat) (ds : List (SrcDecl C N T V X Y)) :
    Option (Ruleset (RProp C N T V) N T X Y) :=
  (ds.foldl Ruleset.addDecl Ruleset.empty).resolve names

end Flair.Sheet
