import Verif.Model.Loader
import Verif.Model.Keyframes
import Verif.Model.AnimProps
import Verif.Model.Calc
/-!
# Model of the reading of a file: `parser.rs`, `parser/keyframes.rs`, `parser/font_face.rs`, `imports_parser.rs`,
`internal_loader.rs` and `loader.rs` of `crates/bevy_flair_css_parser/src`

The crate `cssparser` groups the text into rules and declarations; its result (`Node`) is the input of the model.  What
the value, selector and media query parsers give for some tokens is a parameter (`Parsers`); they may panic.  The rules
that are recognised are handed to `Model/Loader` (as `Src` and `BodySrc`).  Errors with a location are taken to be
reported without a panic; `Model/Report` (C97) says when that is so.
-/
namespace Flair.File
open Flair.Sheet Flair.Layers Flair.Vars Flair.Values Flair.Loader
open Flair.Calc (Res)
open Flair.AnimProps (AId TId)
open Flair.Keyframes (KB Item)

/-- A Rust string, as the list of its characters. -/
abbrev Text := List Char

/-- The tokens of a prelude or a value.  `url`: `url(x)` and `url("x")`; `percentage` carries the number before the
`%`; `func`: a function with its contents; `other`: all the others. -/
inductive Tok where
  | ident (s : Text)
  | string (s : Text)
  | url (s : Text)
  | number (q : ℚ)
  | percentage (q : ℚ)
  | comma
  | func (name : Text) (args : List Tok)
  | other (n : Nat)

/-- A block of text as `StyleSheetParser` and `RuleBodyParser` of `cssparser` split it.  `lead`: a nested rule that
starts with an identifier and a colon (`a:hover { … }`) is tried as a declaration of that name first.  `bad`: anything
they reject themselves. -/
inductive Node where
  | atRule (name : Text) (prelude : List Tok) (block : Option (List Node))
  | qualified (lead : Option Text) (prelude : List Tok) (block : List Node)
  | declaration (name : Text) (value : List Tok)
  | bad

/-- ASCII lower case. -/
def lower (s : Text) : Text := s.map Char.toLower

/-- `name.eq_ignore_ascii_case(s)` and `match_ignore_ascii_case!`. -/
def isName (name : Text) (s : String) : Bool := lower name = s.toList

/-! ## Property names -/

/-- `str::len`: the length in bytes of the UTF-8 encoding. -/
def byteLen (s : Text) : Nat := (s.map Char.utf8Size).sum

/-- `&s[..n]`; `none` is the panic when `n` is not at the boundary of a character. -/
def slice : Text → Nat → Option Text
  | _, 0 => some []
  | [], _ + 1 => none
  | c :: s, n + 1 => if c.utf8Size ≤ n + 1 then (slice s (n + 1 - c.utf8Size)).map (c :: ·) else none

/-- `prefix_eq_ignore_ascii_case` (parser.rs:410-416). -/
def prefixEq (s : Text) (pre : String) : Option Bool :=
  if byteLen pre.toList > byteLen s then some false
  else (slice s (byteLen pre.toList)).map fun t => isName t pre

/-- The fields of `CssRulesetBodyParser` (parser.rs:274-285); `allAnimation` is `ParseAnimationProperties::All`. -/
structure Flags where
  vars : Bool
  transition : Bool
  allAnimation : Bool
  nested : Bool

/-- The flags of the body of a rule (parser.rs:323-329, 346-352, 393-399, 667-673). -/
def ruleFlags : Flags := ⟨true, true, true, true⟩
/-- The flags of `parse_inline_properties` (parser.rs:693-697). -/
def inlineFlags : Flags := ⟨true, true, true, false⟩
/-- The flags of the body of a keyframe (parser/keyframes.rs:94-100). -/
def keyframeFlags : Flags := ⟨false, false, false, false⟩

/-- Which parser a declaration goes to. -/
inductive Kind where
  | custom | transition | animation | property
deriving DecidableEq

/-- The third test of `parse_value` (parser.rs:448-451). -/
def animationKind (f : Flags) (name : Text) : Option Kind :=
  (if f.allAnimation then prefixEq name "animation" else some (isName name "animation-timing-function")).map
    fun b => if b then .animation else .property

/-- The second test of `parse_value` (parser.rs:439-440). -/
def transitionKind (f : Flags) (name : Text) : Option Kind :=
  (if f.transition then prefixEq name "transition" else some false).bind
    fun b => if b then some .transition else animationKind f name

/-- The tests of `DeclarationParser::parse_value` (parser.rs:428-452); `none` is a panic. -/
def kindOf (f : Flags) (name : Text) : Option Kind :=
  if f.vars && name.take 2 = ['-', '-'] then some .custom else transitionKind f name

/-! ## Declarations -/

section
variable (S M C N T V A B : Type)

/-- The parsers of values.  `selectors nested`: `parse_comma_separated` / `parse_comma_separated_for_nested`; `media`:
`parse_media_selectors`; `property`: `parse_ruleset_property` (parser.rs:139-240); `custom`: `parse_var_tokens`;
`animation` and `transition`: `parse_animation_property_helper` for the longhand, or for the shorthand (`none`).
All of them together with "nothing may be left".  `none` and `err` are errors. -/
structure Parsers where
  selectors : Bool → List Tok → Option (List S)
  media : List Tok → Option (List M)
  property : Text → List Tok → Res (List (RProp C N T V))
  custom : List Tok → Option (VarTokens N T)
  varName : Text → N
  animation : Option AId → List Tok → Res A
  transition : Option TId → List Tok → Res B

/-- An animation (transition) declaration: `AnimationProperty` (animations/properties.rs:206-217). -/
abbrev ADecl := Option AId × A
@[inherit_doc ADecl] abbrev TDecl := Option TId × B

/-- The declarations of rules (see `Sheet.SrcDecl`). -/
abbrev FDecl := SrcDecl C N T V (TDecl B) (ADecl A)
/-- An item of the body of a rule (see `Loader.BodySrc`). -/
abbrev FBody := BodySrc S M C N T V (TDecl B) (ADecl A)
/-- A rule of a file (see `Loader.Src`). -/
abbrev FSrc := Src S M C N T V (TDecl B) (ADecl A)
/-- A property of a keyframe: `StyleBuilderProperty`. -/
abbrev KProp := BProp C N T V
end

variable {S M C N T V A B : Type}

/-- The names of `parse_animation_property` (parser/animations.rs:613-703). -/
def animationNames : List (String × Option AId) :=
  [("animation", none), ("animation-name", some .name), ("animation-duration", some .duration),
   ("animation-delay", some .delay), ("animation-direction", some .direction),
   ("animation-fill-mode", some .fillMode), ("animation-iteration-count", some .iterationCount),
   ("animation-play-state", some .playState), ("animation-timing-function", some .timing)]

/-- The names of `parse_transition_property` (parser/animations.rs:714-767). -/
def transitionNames : List (String × Option TId) :=
  [("transition", none), ("transition-property", some .property), ("transition-duration", some .duration),
   ("transition-delay", some .delay), ("transition-timing-function", some .timing)]

/-- A `match_ignore_ascii_case!` over the names of a table. -/
def lookupName {α : Type} (table : List (String × α)) (name : Text) : Option α :=
  (table.find? fun e => isName name e.1).map (·.2)

/-- `parse_animation_property` (parser/animations.rs:609-705). -/
def parseAnimation (p : Parsers S M C N T V A B) (name : Text) (value : List Tok) :
    Res (List (FDecl C N T V A B)) :=
  match lookupName animationNames name with
  | none => .err
  | some id => (p.animation id value).bind fun a => .ok [.animation (id, a)]

/-- `parse_transition_property` (parser/animations.rs:710-769). -/
def parseTransition (p : Parsers S M C N T V A B) (name : Text) (value : List Tok) :
    Res (List (FDecl C N T V A B)) :=
  match lookupName transitionNames name with
  | none => .err
  | some id => (p.transition id value).bind fun b => .ok [.transition (id, b)]

/-- The branches of `DeclarationParser::parse_value` (parser.rs:422-463). -/
def parseAs (p : Parsers S M C N T V A B) (name : Text) (value : List Tok) : Kind → Res (List (FDecl C N T V A B))
  | .custom => match p.custom value with
    | some t => .ok [.var (p.varName (name.drop 2)) t]
    | none => .err
  | .transition => parseTransition p name value
  | .animation => parseAnimation p name value
  | .property => (p.property name value).bind fun ds => .ok (ds.map fun d => .prop d.toBProp)

/-- `DeclarationParser::parse_value` (parser.rs:422-463). -/
def parseValue (p : Parsers S M C N T V A B) (f : Flags) (name : Text) (value : List Tok) :
    Res (List (FDecl C N T V A B)) :=
  match kindOf f name with
  | none => .panic
  | some k => parseAs p name value k

/-- The last branch of `parse_animation_property` and `parse_transition_property` (parser/animations.rs:699, 766): an
error without a location, which `parse_value` returns in an `Ok` (parser.rs:442-461), so that no location is added to it
(parser.rs:252-256).  When tokens are left, `cssparser` replaces it by its own error. -/
def unlocatedDecl (f : Flags) (name : Text) (value : List Tok) : Bool :=
  value.isEmpty && match kindOf f name with
    | some .transition => (lookupName transitionNames name).isNone
    | some .animation => (lookupName animationNames name).isNone
    | _ => false

/-- A declaration as an item of a body (`collect_parser`, parser.rs:245-259); `none` is a panic.  All errors of bodies are
reported (internal_loader.rs:81-83, 97-115, inline_styles.rs:149), and reporting one without a location panics
(error.rs:80-83). -/
def declItem (p : Parsers S M C N T V A B) (f : Flags) (name : Text) (value : List Tok) :
    Option (FBody S M C N T V A B) :=
  match parseValue p f name value with
  | .ok ds => some (.decls ds)
  | .err => if unlocatedDecl f name value then none else some .error
  | .panic => none

/-- The name tried first for a nested rule that looks like a declaration; its value is an error. -/
def leadOk (f : Flags) : Option Text → Bool
  | none => true
  | some n => (kindOf f n).isSome

/-- `input.expect_ident_cloned()`, the prelude of a nested `@layer` (parser.rs:305-308). -/
def oneIdent : List Tok → Option Text
  | [.ident s] => some s
  | _ => none

/-- A nested at-rule with a block (parser.rs:287-370); `body` is what its block gives. -/
def nestedBlock (p : Parsers S M C N T V A B) (name : Text) (prelude : List Tok)
    (body : Option (List (FBody S M C N T V A B))) : Option (FBody S M C N T V A B) :=
  if isName name "media" then
    match p.media prelude with
    | some conds => body.map (.media conds)
    | none => some .error
  else if isName name "layer" then
    match oneIdent prelude with
    | some l => body.map (.layer l)
    | none => some .error
  else some .error

mutual
/-- An item of a rule body: `CssRulesetBodyParser` (parser.rs:287-475); `none` is a panic.  `rule_without_block` is
always an error. -/
def bodyItem (p : Parsers S M C N T V A B) (f : Flags) : Node → Option (FBody S M C N T V A B)
  | .declaration name value => declItem p f name value
  | .qualified lead prelude block =>
    if f.nested then
      if leadOk f lead then (bodyItems p ruleFlags block).map (.rule (p.selectors true prelude)) else none
    else some .error
  | .atRule _ _ none => some .error
  | .atRule name prelude (some b) => if f.nested then nestedBlock p name prelude (bodyItems p ruleFlags b) else some .error
  | .bad => some .error
/-- All items of a body, in order. -/
def bodyItems (p : Parsers S M C N T V A B) (f : Flags) : List Node → Option (List (FBody S M C N T V A B))
  | [] => some []
  | n :: ns => (bodyItem p f n).bind fun i => (bodyItems p f ns).map (i :: ·)
end

/-! ## At-rules -/

/-- `parse_comma_separated`: the tokens between the commas. -/
def segments : List Tok → List (List Tok)
  | [] => [[]]
  | .comma :: ts => [] :: segments ts
  | t :: ts =>
    match segments ts with
    | [] => [[t]]
    | s :: ss => (t :: s) :: ss

/-- `parse_keyframe` (parser/keyframes.rs:45-63), on all its tokens. -/
def keyframeTime : List Tok → Option ℚ
  | [.ident s] => if isName s "from" then some 0 else if isName s "to" then some 1 else none
  | [.percentage q] => if 0 ≤ q / 100 ∧ q / 100 ≤ 1 then some (q / 100) else none
  | [.number q] => if 0 ≤ q ∧ q ≤ 1 then some q else none
  | _ => none

/-- The prelude of a keyframe (parser/keyframes.rs:80-87). -/
def keyframeTimes (ts : List Tok) : Option (List ℚ) := (segments ts).mapM keyframeTime

/-- The prelude of `@layer` (parser.rs:554-559). -/
def layerNames (ts : List Tok) : Option (List Text) := (segments ts).mapM oneIdent

/-- The prelude of `@import` (parser.rs:537-549 and imports_parser.rs:22-34): nothing else may follow. -/
def importPrelude : List Tok → Option (Text × Option Text)
  | [.string u] => some (u, none)
  | [.url u] => some (u, none)
  | [.string u, .func f args] => if isName f "layer" then (oneIdent args).map fun l => (u, some l) else none
  | [.url u, .func f args] => if isName f "layer" then (oneIdent args).map fun l => (u, some l) else none
  | _ => none

/-- `FontFaceProperty` (parser/font_face.rs:8-13). -/
inductive FontProp where
  | family (s : Text)
  | source (s : Text)
  | error

/-- `parse_font_face_property` (parser/font_face.rs:45-71). -/
def fontProp (name : Text) : List Tok → FontProp
  | [.string s] => if isName name "font-family" then .family s else if isName name "src" then .source s else .error
  | [.url s] => if isName name "src" then .source s else .error
  | _ => .error

/-- An item of the body of `@font-face` (parser/font_face.rs:74-108). -/
def fontItem : Node → FontProp
  | .declaration name value => fontProp name value
  | _ => .error

/-- The loop of `parse_font_face_body` (parser/font_face.rs:119-131): family, source, number of errors. -/
def fontStep (st : Option Text × Option Text × Nat) : FontProp → Option Text × Option Text × Nat
  | .family s => (some s, st.2.1, st.2.2)
  | .source s => (st.1, some s, st.2.2)
  | .error => (st.1, st.2.1, st.2.2 + 1)

/-- `ParserAnimationKeyFrame` (parser/keyframes.rs:12-19). -/
inductive Frame (S M C N T V A B : Type) where
  | valid (times : List ℚ) (items : List (FBody S M C N T V A B))
  | error

/-- An item of the body of `@keyframes`: `CssKeyframesBodyParser` (parser/keyframes.rs:66-127); `none` is a panic. -/
def frameItem (p : Parsers S M C N T V A B) : Node → Option (Frame S M C N T V A B)
  | .qualified _ prelude block =>
    match keyframeTimes prelude with
    | some ts => (bodyItems p keyframeFlags block).map (.valid ts)
    | none => some .error
  | _ => some .error

/-! ## Items of a file -/

section
variable (S M C N T V A B : Type)

/-- A loaded `StyleSheet` (style_sheet.rs:162-169) with its font faces and keyframes. -/
structure FSheet where
  base : StyleSheet S M C N T V (TDecl B) (ADecl A)
  fonts : List (Text × Text)
  keyframes : HMap Text (List (KB (RProp C N T V) A))

/-- What is recognised at the top level of a file: `CssStyleSheetItem` (parser.rs:72-80).  `unlocated`: an error
without a location. -/
inductive TopItem where
  | src (s : FSrc S M C N T V A B)
  | importSheet (o : FSheet S M C N T V A B) (layer : Option Text)
  | fontFace (family source : Text) (errors : Nat)
  | keyframes (name : Text) (frames : List (Frame S M C N T V A B))
  | error
  | unlocated
end

/-- An at-rule without a block (parser.rs:564-591). -/
def atStatement (name : Text) (prelude : List Tok) : FSrc S M C N T V A B :=
  if isName name "layer" then
    match layerNames prelude with
    | some ls => .layerStatement ls
    | none => .error
  else .error

/-- An at-rule with a block (parser.rs:524-562, 593-635); `inner` is what its block gives. -/
def atBlock (p : Parsers S M C N T V A B) (name : Text) (prelude : List Tok)
    (inner : Option (List (FSrc S M C N T V A B))) : Option (FSrc S M C N T V A B) :=
  if isName name "media" then
    match p.media prelude with
    | some conds => inner.map (.mediaBlock conds)
    | none => some .error
  else if isName name "layer" then
    match layerNames prelude with
    | some [l] => inner.map (.layerBlock [l])
    | _ => some .error
  else some .error

mutual
/-- `CssStyleSheetParser` without the rules of the top level (parser.rs:519-682); `none` is a panic. -/
def ruleItem (p : Parsers S M C N T V A B) : Node → Option (FSrc S M C N T V A B)
  | .qualified _ prelude block => (bodyItems p ruleFlags block).map (.rule (p.selectors false prelude))
  | .atRule name prelude none => some (atStatement name prelude)
  | .atRule name prelude (some b) => atBlock p name prelude (ruleItems p b)
  | _ => some .error
/-- `parse_inner_at_rule` (parser.rs:493-516) -/
def ruleItems (p : Parsers S M C N T V A B) : List Node → Option (List (FSrc S M C N T V A B))
  | [] => some []
  | n :: ns => (ruleItem p n).bind fun i => (ruleItems p ns).map (i :: ·)
end

/-- `parse_font_face_body` (parser/font_face.rs:110-145). -/
def fontFaceItem (block : List Node) : TopItem S M C N T V A B :=
  match (block.map fontItem).foldl fontStep (none, none, 0) with
  | (some family, some source, errors) => .fontFace family source errors
  | _ => .unlocated

/-- `parse_keyframes_body` (parser/keyframes.rs:129-161); `declared` are the animations declared so far. -/
def keyframesItem (p : Parsers S M C N T V A B) (declared : List Text) (name : Text) (block : List Node) :
    Option (TopItem S M C N T V A B) :=
  (block.mapM (frameItem p)).map fun frames =>
    if name ∈ declared then .unlocated else .keyframes name frames

/-- `@import` (parser.rs:537-549, 570-576, 608-614): `none` is the panic `Import … not found`. -/
def importItem (imports : Text → Option (FSheet S M C N T V A B)) (u : Text) (layer : Option Text) :
    Option (TopItem S M C N T V A B) :=
  (imports u).map fun o => .importSheet o layer

/-- The at-rules of the top level only (parser.rs:531-549, 570-576, 599-614), otherwise `ruleItem`. -/
def topItem (p : Parsers S M C N T V A B) (imports : Text → Option (FSheet S M C N T V A B))
    (declared : List Text) (n : Node) : Option (TopItem S M C N T V A B) :=
  match n with
  | .atRule name prelude block =>
    if isName name "font-face" then
      match prelude, block with
      | [], some b => some (fontFaceItem b)
      | _, _ => some .error
    else if isName name "keyframes" then
      match oneIdent prelude, block with
      | some k, some b => keyframesItem p declared k b
      | _, _ => some .error
    else if isName name "import" then
      match importPrelude prelude, block with
      | some (u, l), none => importItem imports u l
      | _, _ => some .error
    else (ruleItem p n).map .src
  | n => (ruleItem p n).map .src

/-- The animation an item declares (parser/keyframes.rs:152). -/
def declares : TopItem S M C N T V A B → List Text
  | .keyframes k _ => [k]
  | _ => []

/-- `parse_css` (parser.rs:710-751). -/
def topItems (p : Parsers S M C N T V A B) (imports : Text → Option (FSheet S M C N T V A B)) :
    List Text → List Node → Option (List (TopItem S M C N T V A B))
  | _, [] => some []
  | declared, n :: ns =>
    (topItem p imports declared n).bind fun i => (topItems p imports (declared ++ declares i) ns).map (i :: ·)

/-! ## The loader -/

/-- What `processor` takes of an item of a keyframe (internal_loader.rs:203-266): `none` is `unreachable!`,
`some none` an error. -/
def keyframeProp : FDecl C N T V A B → Option (KProp C N T V)
  | .prop b => some b
  | _ => none

@[inherit_doc keyframeProp]
def keyframeItem : FBody S M C N T V A B → Option (Option (Item (KProp C N T V) A))
  | .error => some none
  | .decls [.animation (some .timing, a)] => some (some (.easing a))
  | .decls ds => (ds.mapM keyframeProp).map fun bs => some (.props bs)
  | _ => none

/-- A frame in the loop of `processor` (internal_loader.rs:199-272): its rule, and the number of errors. -/
def keyframeRule : Frame S M C N T V A B → Option (List (List ℚ × List (Item (KProp C N T V) A)) × Nat)
  | .error => some ([], 1)
  | .valid times items =>
    (items.mapM keyframeItem).map fun is =>
      ([(times, is.filterMap id)], (is.filter Option.isNone).length)

/-- `AnimationKeyframesBuilder::build` with an empty registry (keyframes.rs:486-516, internal_loader.rs:274-278);
`none` is the panic of `expect`. -/
def resolveFrame (k : KB (KProp C N T V) A) : Option (KB (RProp C N T V) A) :=
  (k.props.mapM (BProp.resolve fun _ => none)).map fun ps => ⟨k.time, ps, k.easing⟩

/-- `CssStyleSheetItem::AnimationKeyFrames` in `processor` (internal_loader.rs:196-279): the keyframes, and the number
of errors. -/
def processKeyframes (frames : List (Frame S M C N T V A B)) :
    Option (List (KB (RProp C N T V) A) × Nat) :=
  (frames.mapM keyframeRule).bind fun rs =>
    ((Keyframes.keyframes (Keyframes.callsOf (rs.flatMap (·.1)))).mapM resolveFrame).map fun ks =>
      (ks, (rs.map (·.2)).sum)

section
variable (S M C N T V A B : Type)
/-- `StyleSheetBuilder` (builder.rs:388-394), all its fields, and the errors reported so far. -/
structure State where
  base : Builder S M C N T V (TDecl B) (ADecl A)
  errors : Nat
  fonts : List (Text × Text)
  keyframes : List (Text × List (KB (RProp C N T V) A))
end

/-- Rules and imports go through `Loader.process`. -/
def State.rules (st : State S M C N T V A B) (r : Option (Builder S M C N T V (TDecl B) (ADecl A) × Nat)) :
    Option (State S M C N T V A B) :=
  r.map fun x => { st with base := x.1, errors := x.2 }

/-- `builder.add_animation_keyframes` (builder.rs:529-531). -/
def State.addKeyframes (st : State S M C N T V A B) (name : Text)
    (r : Option (List (KB (RProp C N T V) A) × Nat)) : Option (State S M C N T V A B) :=
  r.map fun x => { st with keyframes := st.keyframes ++ [(name, x.1)], errors := st.errors + x.2 }

/-- The last lines of `embed_style_sheet` (builder.rs:436-439). -/
def State.addFrom (st : State S M C N T V A B) (o : FSheet S M C N T V A B) : State S M C N T V A B :=
  { st with fonts := st.fonts ++ o.fonts, keyframes := st.keyframes ++ o.keyframes }

/-- `processor` (internal_loader.rs:167-284).  Reporting an error without a location panics (error.rs:80-83, 462). -/
def processTop [DecidableEq N] (rp : S → List S → S) (amp : S) (st : State S M C N T V A B) :
    TopItem S M C N T V A B → Option (State S M C N T V A B)
  | .src s => st.rules (process rp (parseItem amp ⟨[], []⟩ s) (st.base, st.errors))
  | .importSheet o layer =>
    (st.rules (process rp (.embed o.base layer) (st.base, st.errors))).map fun st => st.addFrom o
  | .fontFace family source errors =>
    some { st with fonts := st.fonts ++ [(family, source)], errors := st.errors + errors }
  | .keyframes name frames => st.addKeyframes name (processKeyframes frames)
  | .error => some { st with errors := st.errors + 1 }
  | .unlocated => none

/-- `StyleSheetBuilder::new` -/
def State.start : State S M C N T V A B := ⟨Builder.new, 0, [], []⟩

/-- `load_stylesheet` (internal_loader.rs:88-327).  Outer `none`: panic; inner `none`: the errors are returned. -/
def loadStylesheet [DecidableEq N] (p : Parsers S M C N T V A B) (rp : S → List S → S) (amp : S) (mode : ErrorMode)
    (imports : Text → Option (FSheet S M C N T V A B)) (nodes : List Node) :
    Option (Option (State S M C N T V A B)) :=
  (topItems p imports [] nodes).bind fun is =>
    (is.foldlM (processTop rp amp) State.start).bind fun st =>
      if st.errors > 0 ∧ mode = .returnError then some none
      else st.base.removeAllEmpty.map fun b => some { st with base := b }

/-- How loading a file ends. -/
inductive Outcome (α : Type) where
  | panic
  | error
  | loaded (a : α)

/-- What `StyleSheetBuilder::build` depends on (see `Sheet.Builder.build`). -/
structure BuildEnv (S C V : Type) where
  names : C → Option Nat
  typeOk : Nat → V → Bool
  spec : S → Nat
  ph : V → PropertyValue V

/-- `StyleSheetBuilder::build` (builder.rs:631-689); resolving the sources of the font faces is in
`Model/Placeholder`. -/
def State.build [DecidableEq N] (env : BuildEnv S C V) (st : State S M C N T V A B) :
    Outcome (FSheet S M C N T V A B) :=
  match st.base.build env.names env.typeOk env.spec env.ph with
  | none => .panic
  | some (.error _) => .error
  | some (.ok sh) => .loaded ⟨sh, st.fonts, HMap.extend [] st.keyframes⟩

/-- The end of `AssetLoader::load` (loader.rs:145-150). -/
def loadWith [DecidableEq N] (p : Parsers S M C N T V A B) (rp : S → List S → S) (amp : S) (env : BuildEnv S C V)
    (mode : ErrorMode) (imports : Text → Option (FSheet S M C N T V A B)) (nodes : List Node) :
    Outcome (FSheet S M C N T V A B) :=
  match loadStylesheet p rp amp mode imports nodes with
  | none => .panic
  | some none => .error
  | some (some st) => st.build env

/-- A top level item in `CssImportsParser` (imports_parser.rs:11-52). -/
def importOf : Node → Option Text
  | .atRule name prelude none => if isName name "import" then (importPrelude prelude).map (·.1) else none
  | _ => none

/-- `extract_imports` (imports_parser.rs:54-67). -/
def extractImports (nodes : List Node) : List Text := nodes.filterMap importOf

/-- `InlineCssStyleSheetParser::load_stylesheet` (loader.rs:197-235). -/
def loadInline [DecidableEq N] (p : Parsers S M C N T V A B) (rp : S → List S → S) (amp : S) (env : BuildEnv S C V)
    (nodes : List Node) : Outcome (FSheet S M C N T V A B) :=
  if (extractImports nodes).isEmpty then loadWith p rp amp env .returnError (fun _ => none) nodes else .error

/-- The loop over the imports of `AssetLoader::load` (loader.rs:122-130), given how a file is loaded.  Outer `none`:
it does not end (yet).  A failed import fails the file.  `imports.insert`: the last one of a path counts. -/
def loadImports (load : Text → Option (Outcome (FSheet S M C N T V A B))) :
    List Text → HMap Text (FSheet S M C N T V A B) → Option (Outcome (HMap Text (FSheet S M C N T V A B)))
  | [], m => some (.loaded m)
  | u :: us, m =>
    match load u with
    | none => none
    | some .panic => some .panic
    | some .error => some .error
    | some (.loaded o) => loadImports load us (m.insert u o)

/-- `AssetLoader::load` (loader.rs:108-151), with at most `fuel` files inside each other; `none`: it has not ended.
`disk`: the contents of the files (`none`: it cannot be read); `mode`: the settings of each file. -/
def loadFile [DecidableEq N] (p : Parsers S M C N T V A B) (rp : S → List S → S) (amp : S) (env : BuildEnv S C V)
    (mode : Text → ErrorMode) (disk : Text → Option (List Node)) :
    Nat → Text → Option (Outcome (FSheet S M C N T V A B))
  | 0, _ => none
  | fuel + 1, path =>
    match disk path with
    | none => some .error
    | some nodes =>
      match loadImports (loadFile p rp amp env mode disk fuel) (extractImports nodes) [] with
      | none => none
      | some .panic => some .panic
      | some .error => some .error
      | some (.loaded m) => some (loadWith p rp amp env (mode path) m.get? nodes)

end Flair.File
