import Verif.Spec.File
import Verif.Spec.SheetTree
/-!
# Specification: what the files on a disk say

From the model: the syntax of files (`Node`, `Tok`), that of sources (`Src`, `BodySrc`, `Part`) and the parsers of values
(`Parsers`).
-/
namespace Flair.Spec
open Flair.File Flair.Sheet Flair.Loader Flair.SheetTree Flair.Values Flair.Vars
open Flair.Calc (Res)
open Flair.AnimProps (AId TId)
variable {S M C N T V A B : Type}

/-- The transition property a name stands for (`some none`: the shorthand). -/
def transitionProperty (name : List Char) : Option (Option TId) :=
  if lower name = "transition".toList then some none
  else if lower name = "transition-property".toList then some (some .property)
  else if lower name = "transition-duration".toList then some (some .duration)
  else if lower name = "transition-delay".toList then some (some .delay)
  else if lower name = "transition-timing-function".toList then some (some .timing)
  else none

/-- The animation property a name stands for (`some none`: the shorthand). -/
def animationProperty (name : List Char) : Option (Option AId) :=
  if lower name = "animation".toList then some none
  else if lower name = "animation-name".toList then some (some .name)
  else if lower name = "animation-duration".toList then some (some .duration)
  else if lower name = "animation-delay".toList then some (some .delay)
  else if lower name = "animation-direction".toList then some (some .direction)
  else if lower name = "animation-fill-mode".toList then some (some .fillMode)
  else if lower name = "animation-iteration-count".toList then some (some .iterationCount)
  else if lower name = "animation-play-state".toList then some (some .playState)
  else if lower name = "animation-timing-function".toList then some (some .timing)
  else none

/-- What a declaration says whose value is read as given; what cannot be read is an error. -/
def declared {X : Type} (r : Res X) (f : X → List (FDecl C N T V A B)) : FBody S M C N T V A B :=
  match r with
  | .ok x => .decls (f x)
  | _ => .error

/-- What a declaration in a rule says: `--name` is a variable; names that start with `transition` or `animation` are
transition and animation properties; all the others are properties of the element. -/
def readDecl (p : Parsers S M C N T V A B) (name : List Char) (value : List Tok) : FBody S M C N T V A B :=
  match name with
  | '-' :: '-' :: rest =>
    match p.custom value with
    | some t => .decls [.var (p.varName rest) t]
    | none => .error
  | name =>
    if "transition".toList <+: lower name then
      match transitionProperty name with
      | some id => declared (p.transition id value) fun b => [.transition (id, b)]
      | none => .error
    else if "animation".toList <+: lower name then
      match animationProperty name with
      | some id => declared (p.animation id value) fun a => [.animation (id, a)]
      | none => .error
    else declared (p.property name value) fun ds => ds.map fun d => .prop d.toBProp

/-- A single name. -/
def oneName : List Tok → Option (List Char)
  | [.ident l] => some l
  | _ => none

mutual
/-- What an item of the body of a rule says. -/
def readItem (p : Parsers S M C N T V A B) : Node → FBody S M C N T V A B
  | .declaration name value => readDecl p name value
  | .qualified _ prelude block => .rule (p.selectors true prelude) (readBody p block)
  | .atRule name prelude (some block) =>
    if lower name = "media".toList then
      match p.media prelude with
      | some conds => .media conds (readBody p block)
      | none => .error
    else if lower name = "layer".toList then
      match oneName prelude with
      | some l => .layer l (readBody p block)
      | none => .error
    else .error
  | .atRule _ _ none => .error
  | .bad => .error
/-- What the body of a rule says. -/
def readBody (p : Parsers S M C N T V A B) : List Node → List (FBody S M C N T V A B)
  | [] => []
  | n :: ns => readItem p n :: readBody p ns
end

/-- Names with commas between them. -/
def commaNames : List Tok → Option (List (List Char))
  | [.ident a] => some [a]
  | .ident a :: .comma :: rest => (commaNames rest).map (a :: ·)
  | _ => none

mutual
/-- What a rule of a file says: rules with selectors, `@layer` statements, and blocks of `@media` and `@layer`. -/
def readRule (p : Parsers S M C N T V A B) : Node → FSrc S M C N T V A B
  | .qualified _ prelude block => .rule (p.selectors false prelude) (readBody p block)
  | .atRule name prelude none =>
    if lower name = "layer".toList then
      match commaNames prelude with
      | some ls => .layerStatement ls
      | none => .error
    else .error
  | .atRule name prelude (some block) =>
    if lower name = "media".toList then
      match p.media prelude with
      | some conds => .mediaBlock conds (readRules p block)
      | none => .error
    else if lower name = "layer".toList then
      match oneName prelude with
      | some l => .layerBlock [l] (readRules p block)
      | none => .error
    else .error
  | .declaration _ _ => .error
  | .bad => .error
/-- What the rules in a block say. -/
def readRules (p : Parsers S M C N T V A B) : List Node → List (FSrc S M C N T V A B)
  | [] => []
  | n :: ns => readRule p n :: readRules p ns
end

/-- `@font-face { … }` and `@keyframes name { … }`, which declare no rules (see C83). -/
def ApartRule : Node → Prop
  | .atRule name prelude (some _) =>
    (lower name = "font-face".toList ∧ prelude = []) ∨
    (lower name = "keyframes".toList ∧ ∃ k, prelude = [.ident k])
  | _ => False

/-- `@import`, of the path, into the layer. -/
inductive ImportsAs : Node → List Char → Option (List Char) → Prop
  | plain (name t u) : lower name = "import".toList → (t = .string u ∨ t = .url u) →
      ImportsAs (.atRule name [t] none) u none
  | layer (name t u f l) : lower name = "import".toList → (t = .string u ∨ t = .url u) → lower f = "layer".toList →
      ImportsAs (.atRule name [t, .func f [.ident l]] none) u (some l)

mutual
/-- The file with everything it imports. -/
inductive FileTree (p : Parsers S M C N T V A B) (mode : List Char → ErrorMode) (disk : List Char → Option (List Node)) :
    List Char → List (Part S M C N T V (TDecl B) (ADecl A)) → Prop
  | file (path nodes parts) : disk path = some nodes → NodesTree p mode disk nodes parts → FileTree p mode disk path parts
/-- Its rules, in order: each `@import` with the file it imports. -/
inductive NodesTree (p : Parsers S M C N T V A B) (mode : List Char → ErrorMode) (disk : List Char → Option (List Node)) :
    List Node → List (Part S M C N T V (TDecl B) (ADecl A)) → Prop
  | nil : NodesTree p mode disk [] []
  | imported (n u layer ns parts rest) : ImportsAs n u layer → FileTree p mode disk u parts →
      NodesTree p mode disk ns rest → NodesTree p mode disk (n :: ns) (.sheet layer (mode u) parts :: rest)
  | apart (n ns rest) : ApartRule n → NodesTree p mode disk ns rest → NodesTree p mode disk (n :: ns) rest
  | own (n ns rest) : (∀ u l, ¬ ImportsAs n u l) → ¬ ApartRule n → NodesTree p mode disk ns rest →
      NodesTree p mode disk (n :: ns) (.own [readRule p n] :: rest)
end

/-- The names of layers, in `@layer` and in `@import`, have no dot (the dots of `a.b` are no part of a name) and are not
empty. -/
def PlainLayers (nodes : List Node) : Prop :=
  ∀ name prelude block, Within (.atRule name prelude block) nodes →
    lower name = "layer".toList ∨ lower name = "import".toList → ∀ s, NameIn s prelude → s ≠ [] ∧ '.' ∉ s

/-- No list of selectors is read as an empty one. -/
def SomeSelectors (p : Parsers S M C N T V A B) : Prop := ∀ nested ts, p.selectors nested ts ≠ some []

/-- A keyframe in which everything can be read. -/
def CleanFrame (p : Parsers S M C N T V A B) (m : Node) : Prop :=
  ∃ lead prelude block ts, m = .qualified lead prelude block ∧ TimesOf prelude ts ∧
    ∀ d ∈ block, ∃ said, KeyframeDecl p d (some said)

/-- A `@font-face` (`@keyframes`) rule in which everything can be read. -/
def CleanRule (p : Parsers S M C N T V A B) : Node → Prop
  | .atRule name _ (some block) =>
    (lower name = "font-face".toList → ∀ m ∈ block, familyOf m ≠ none ∨ sourceOf m ≠ none) ∧
    (lower name = "keyframes".toList → ∀ m ∈ block, CleanFrame p m)
  | _ => True

open Classical in
/-- What a text without `@import` says, but for its `@font-face` and `@keyframes` rules. -/
noncomputable def ownRules (p : Parsers S M C N T V A B) (nodes : List Node) :
    List (Part S M C N T V (TDecl B) (ADecl A)) :=
  (nodes.filter fun n => ¬ ApartRule n).map fun n => .own [readRule p n]

/-- A file whose errors are to be returned has none, in its rules and in its `@font-face` and `@keyframes` rules. -/
def StrictOk (p : Parsers S M C N T V A B) (mode : List Char → ErrorMode) (disk : List Char → Option (List Node)) : Prop :=
  ∀ path nodes parts, mode path = .returnError → disk path = some nodes → FileTree p mode disk path parts →
    (∀ n ∈ nodes, ApartRule n → CleanRule p n) ∧ ¬ FileError parts

end Flair.Spec
