import Verif.Model.File
/-!
# Specification of files

From the model: the syntax of files (`Node`, `Tok`), the parsers of values (`Parsers`), the loaded sheet (`FSheet`) and the
builder of keyframes (`Keyframes.keyframes`, see C34).
-/
namespace Flair.Spec
open Flair.File Flair.Sheet
open Flair.Calc (Res)
open Flair.Keyframes (KB Item)

variable {S M C N T V A B : Type}

/-! ## What crashes the loader (C82) -/

/-- The node stands somewhere in the file. -/
inductive Within : Node → List Node → Prop
  | here (n : Node) (ns : List Node) : n ∈ ns → Within n ns
  | inRule (n : Node) (lead prelude block) (ns : List Node) : Node.qualified lead prelude block ∈ ns →
      Within n block → Within n ns
  | inBlock (n : Node) (name prelude block) (ns : List Node) : Node.atRule name prelude (some block) ∈ ns →
      Within n block → Within n ns

/-- The number of bytes of a text in UTF-8. -/
def utf8Length (s : List Char) : Nat := (s.map Char.utf8Size).sum

/-- No character of the text is written across its `n`th byte. -/
def SplitsAt (n : Nat) (s : List Char) : Prop := utf8Length s < n ∨ ∃ a b, s = a ++ b ∧ utf8Length a = n

/-- The name of a property that does no harm: no character across the end of its 9th or 10th byte. -/
def HarmlessName (s : List Char) : Prop := SplitsAt 9 s ∧ SplitsAt 10 s

/-- The names a prelude has, directly or inside a function. -/
inductive NameIn (s : List Char) : List Tok → Prop
  | direct (ts) : Tok.ident s ∈ ts → NameIn s ts
  | inside (f args ts) : Tok.func f args ∈ ts → Tok.ident s ∈ args → NameIn s ts

/-- A name that does not start with a dot. -/
def NoDot (s : List Char) : Prop := s.head? ≠ some '.'

/-- The name of a custom property. -/
def IsCustom (s : List Char) : Prop := ∃ rest, s = '-' :: '-' :: rest

/-- A name that starts like that of a transition or an animation property but is none of them. -/
def UnknownMotion (s : List Char) : Prop :=
  ("transition".toList <+: lower s ∧ lower s ∉ ["transition".toList, "transition-property".toList,
    "transition-duration".toList, "transition-delay".toList, "transition-timing-function".toList]) ∨
  ("animation".toList <+: lower s ∧ lower s ∉ ["animation".toList, "animation-name".toList,
    "animation-duration".toList, "animation-delay".toList, "animation-direction".toList, "animation-fill-mode".toList,
    "animation-iteration-count".toList, "animation-play-state".toList, "animation-timing-function".toList])

/-- A file that does no harm: the names of the properties are harmless, no name of a layer (in `@layer` or
`@import`) starts with a dot (an identifier is never empty), and no unknown transition or animation property has an empty
value. -/
structure HarmlessFile (nodes : List Node) : Prop where
  names : ∀ name value, Within (.declaration name value) nodes → IsCustom name ∨ HarmlessName name
  leads : ∀ name prelude block, Within (.qualified (some name) prelude block) nodes → IsCustom name ∨ HarmlessName name
  layers : ∀ name prelude block, Within (.atRule name prelude block) nodes →
    lower name = "layer".toList ∨ lower name = "import".toList → ∀ s, NameIn s prelude → s ≠ [] ∧ NoDot s
  empties : ∀ name, Within (.declaration name []) nodes → ¬ UnknownMotion name

/-- The parsers of values do not panic (see C64 for the shorthands). -/
structure CalmParsers (p : Parsers S M C N T V A B) : Prop where
  property : ∀ name ts, p.property name ts ≠ .panic
  animation : ∀ id ts, p.animation id ts ≠ .panic
  transition : ∀ id ts, p.transition id ts ≠ .panic

/-! ## Keyframes and font faces (C83) -/

/-- The time of a keyframe. -/
inductive TimeWord : Tok → ℚ → Prop
  | start (s) : lower s = "from".toList → TimeWord (.ident s) 0
  | finish (s) : lower s = "to".toList → TimeWord (.ident s) 1
  | percentage (q : ℚ) : 0 ≤ q → q ≤ 100 → TimeWord (.percentage q) (q / 100)
  | number (q : ℚ) : 0 ≤ q → q ≤ 1 → TimeWord (.number q) q

/-- Times, with commas between them. -/
inductive TimesOf : List Tok → List ℚ → Prop
  | one (t q) : TimeWord t q → TimesOf [t] [q]
  | more (t q ts qs) : TimeWord t q → TimesOf ts qs → TimesOf (t :: .comma :: ts) (q :: qs)

/-- What a declaration in a keyframe says; what cannot be read is left out. -/
inductive KeyframeDecl (p : Parsers S M C N T V A B) : Node → Option (Item (RProp C N T V) A) → Prop
  | easing (name value a) : lower name = "animation-timing-function".toList → p.animation (some .timing) value = .ok a →
      KeyframeDecl p (.declaration name value) (some (.easing a))
  | props (name value ds) : lower name ≠ "animation-timing-function".toList → p.property name value = .ok ds →
      KeyframeDecl p (.declaration name value) (some (.props ds))
  | badEasing (name value) : lower name = "animation-timing-function".toList → p.animation (some .timing) value = .err →
      KeyframeDecl p (.declaration name value) none
  | badProps (name value) : lower name ≠ "animation-timing-function".toList → p.property name value = .err →
      KeyframeDecl p (.declaration name value) none
  | other (n) : (∀ name value, n ≠ .declaration name value) → KeyframeDecl p n none

/-- What the body of a keyframe says. -/
def KeyframeBody (p : Parsers S M C N T V A B) (block : List Node) (items : List (Item (RProp C N T V) A)) : Prop :=
  ∃ os, List.Forall₂ (KeyframeDecl p) block os ∧ items = os.filterMap id

/-- What the body of `@keyframes` says: the keyframes whose times can be read. -/
inductive KeyframesBody (p : Parsers S M C N T V A B) : List Node → List (List ℚ × List (Item (RProp C N T V) A)) → Prop
  | nil : KeyframesBody p [] []
  | keyframe (lead prelude block ns ts items rs) : TimesOf prelude ts → KeyframeBody p block items →
      KeyframesBody p ns rs → KeyframesBody p (.qualified lead prelude block :: ns) ((ts, items) :: rs)
  | other (n ns rs) : (∀ lead prelude block, n = .qualified lead prelude block → ∀ ts, ¬ TimesOf prelude ts) →
      KeyframesBody p ns rs → KeyframesBody p (n :: ns) rs

/-- `@import` with a string or `url(…)`, and maybe `layer(…)`. -/
inductive ImportRule : Node → List Char → Prop
  | plain (name t u) : lower name = "import".toList → (t = .string u ∨ t = .url u) → ImportRule (.atRule name [t] none) u
  | layer (name t u f l) : lower name = "import".toList → (t = .string u ∨ t = .url u) → lower f = "layer".toList →
      ImportRule (.atRule name [t, .func f [.ident l]] none) u

/-- `@keyframes name { … }` -/
inductive KeyframesRule : Node → List Char → List Node → Prop
  | mk (name k block) : lower name = "keyframes".toList → KeyframesRule (.atRule name [.ident k] (some block)) k block

/-- The animations a file gives names to, in order: those of the files it imports (`imports`), and its own; no two
`@keyframes` of the file have the same name (`done`: the names before). -/
inductive Animations (p : Parsers S M C N T V A B) (imports : List Char → Option (FSheet S M C N T V A B)) :
    List (List Char) → List Node → List (List Char × List (KB (RProp C N T V) A)) → Prop
  | nil (done) : Animations p imports done [] []
  | own (done n k block rules ns as) : KeyframesRule n k block → k ∉ done → KeyframesBody p block rules →
      Animations p imports (k :: done) ns as →
      Animations p imports done (n :: ns) ((k, Keyframes.keyframes (Keyframes.callsOf rules)) :: as)
  | imported (done n u o ns as) : ImportRule n u → imports u = some o →
      Animations p imports done ns as → Animations p imports done (n :: ns) (o.keyframes ++ as)
  | other (done n ns as) : (∀ k block, ¬ KeyframesRule n k block) → (∀ u, ¬ ImportRule n u) →
      Animations p imports done ns as → Animations p imports done (n :: ns) as

/-- The last entry of a name. -/
def lastNamed {W : Type} (l : List (List Char × W)) (k : List Char) : Option W :=
  ((l.filter fun e => e.1 = k).getLast?).map (·.2)

/-- A `font-family` (`src`) declaration in `@font-face`. -/
def familyOf : Node → Option (List Char)
  | .declaration name [.string s] => if lower name = "font-family".toList then some s else none
  | _ => none
@[inherit_doc familyOf] def sourceOf : Node → Option (List Char)
  | .declaration name [.string s] => if lower name = "src".toList then some s else none
  | .declaration name [.url s] => if lower name = "src".toList then some s else none
  | _ => none

/-- A `@font-face` rule with its family and source: the last ones written. -/
inductive FontFaceRule : Node → List Char → List Char → Prop
  | mk (name block family source) : lower name = "font-face".toList →
      (block.filterMap familyOf).getLast? = some family → (block.filterMap sourceOf).getLast? = some source →
      FontFaceRule (.atRule name [] (some block)) family source

/-- The name of a `@keyframes` rule. -/
def keyframesName : Node → Option (List Char)
  | .atRule name [.ident k] (some _) => if lower name = "keyframes".toList then some k else none
  | _ => none

/-- The rules of a file that must be whole (C82): every `@font-face` has a family and a source, and no two `@keyframes`
have the same name. -/
structure WholeFile (nodes : List Node) : Prop where
  fonts : ∀ name block, Node.atRule name [] (some block) ∈ nodes → lower name = "font-face".toList →
    ∃ family source, FontFaceRule (.atRule name [] (some block)) family source
  keyframes : (nodes.filterMap keyframesName).Nodup

/-- The font faces of a file, in order. -/
inductive Fonts (imports : List Char → Option (FSheet S M C N T V A B)) : List Node → List (List Char × List Char) → Prop
  | nil : Fonts imports [] []
  | own (n family source ns fs) : FontFaceRule n family source → Fonts imports ns fs →
      Fonts imports (n :: ns) ((family, source) :: fs)
  | imported (n u o ns fs) : ImportRule n u → imports u = some o → Fonts imports ns fs →
      Fonts imports (n :: ns) (o.fonts ++ fs)
  | other (n ns fs) : (∀ family source, ¬ FontFaceRule n family source) → (∀ u, ¬ ImportRule n u) →
      Fonts imports ns fs → Fonts imports (n :: ns) fs

/-! ## Imports (C84) -/

/-- The first file imports the second. -/
def ImportsFile (disk : List Char → Option (List Node)) (a b : List Char) : Prop :=
  ∃ nodes, disk a = some nodes ∧ ∃ n ∈ nodes, ImportRule n b

/-- The file is on top of no infinite chain of imports. -/
def NoCycle (disk : List Char → Option (List Node)) : List Char → Prop := Acc fun b a => ImportsFile disk a b

end Flair.Spec
