import Verif.Spec.Layers
import Verif.Spec.Vars
import Verif.Model.Sheet
import Mathlib.Data.List.Forall2
/-!
# Specification of the cascade

The first part knows nothing of the code.  The second part says what one declaration assigns; it
uses from the model only the syntax of declarations.
-/
namespace Flair.Spec

/-- A rule as seen by one element: the selectors of the rule that match it (layer path, `[]` for
un-layered styles, and specificity), and, declaration by declaration, the assignments made. -/
structure MRule (K W : Type) where
  matching : List (Path × Nat)
  decls : List (List (K × W))

/-- Where an assignment comes from. -/
inductive Origin where
  /-- from a rule of the sheet: layer and specificity of the matching selector, index of the rule -/
  | sheet (layer : Path) (specificity : Nat) (rule : Nat)
  /-- from the inline style -/
  | inline

/-- An assignment: its origin, the index of the declaration in the rule, and the index of the
assignment in the declaration (a shorthand makes several). -/
structure Occ where
  origin : Origin
  decl : Nat
  sub : Nat

/-- `o` is an assignment of `w` to `k` that applies to the element. -/
def Cand {K W : Type} (rules : List (MRule K W)) (inline : List (List (K × W))) (o : Occ) (k : K)
    (w : W) : Prop :=
  match o.origin with
  | .sheet layer specificity rule => ∃ r d, rules[rule]? = some r ∧ (layer, specificity) ∈ r.matching ∧
      r.decls[o.decl]? = some d ∧ d[o.sub]? = some (k, w)
  | .inline => ∃ d, inline[o.decl]? = some d ∧ d[o.sub]? = some (k, w)

/-- `o1` loses against `o2`: inline beats everything; then the layer order, then specificity, then
the later rule, then the later declaration, then the later assignment in it. -/
def Weaker (ds : List Path) (o1 o2 : Occ) : Prop :=
  match o1.origin, o2.origin with
  | .sheet .., .inline => True
  | .inline, .sheet .. => False
  | .inline, .inline => o1.decl < o2.decl ∨ (o1.decl = o2.decl ∧ o1.sub < o2.sub)
  | .sheet l1 s1 r1, .sheet l2 s2 r2 =>
    Below ds l1 l2 ∨ (l1 = l2 ∧ (s1 < s2 ∨ (s1 = s2 ∧ (r1 < r2 ∨ (r1 = r2 ∧
      (o1.decl < o2.decl ∨ (o1.decl = o2.decl ∧ o1.sub < o2.sub)))))))

/-- The assignment of `w` to `k` by `o` applies and beats all others to `k`. -/
def Winner {K W : Type} (ds : List Path) (rules : List (MRule K W)) (inline : List (List (K × W)))
    (o : Occ) (k : K) (w : W) : Prop :=
  Cand rules inline o k w ∧ ∀ o' w', Cand rules inline o' k w' → o' = o ∨ Weaker ds o' o

/-- The outcome of the cascade for `k`: the winning value, or `none` when nothing assigns `k`. -/
def Cascade {K W : Type} (ds : List Path) (rules : List (MRule K W)) (inline : List (List (K × W)))
    (k : K) : Option W → Prop
  | some w => ∃ o, Winner ds rules inline o k w
  | none => ∀ o w, ¬ Cand rules inline o k w

/-! ## What a declaration assigns -/
open Flair.Sheet Flair.Vars Flair.Values

variable {S M C N T V X Y : Type}

/-- The text of a `var()` declaration after substitution: only when every variable is defined and
nesting stays below the limit of 8. -/
def Substituted (env : N → Option (VarTokens N T)) (tokens : VarTokens N T) (toks : List T) : Prop :=
  Subst env tokens toks ∧ ∀ vs, RefChain env tokens vs → vs.length < 8

/-- The property a declaration refers to: by its number, or by a name that may not exist. -/
def refersTo (names : C → Option Nat) : PropRef C → Option Nat
  | .id n => some n
  | .canonical c => names c

/-- A declaration assigns the list `l` of (property, value) for an element with variable
environment `env`.  `ph` is what placeholder values are replaced with. -/
inductive Gives (names : C → Option Nat) (ph : V → PropertyValue V)
    (env : N → Option (VarTokens N T)) :
    SrcDecl C N T V X Y → List (Nat × PropertyValue V) → Prop
  | value (r v id) : refersTo names r = some id →
      Gives names ph env (.prop (.specific r (.value v))) [(id, ph v)]
  | keyword (r v id) : refersTo names r = some id → (∀ x, v ≠ .value x) →
      Gives names ph env (.prop (.specific r v)) [(id, v)]
  | parsed (parser tokens toks vals l) : Substituted env tokens toks → parser toks = some vals →
      List.Forall₂ (fun rv iv => refersTo names rv.1 = some iv.1 ∧ rv.2 = iv.2) vals l →
      Gives names ph env (.prop (.dynamic parser tokens)) l
  | unresolved (parser tokens) : (∀ toks, ¬ Substituted env tokens toks) →
      Gives names ph env (.prop (.dynamic parser tokens)) []
  | unparsable (parser tokens toks) : Substituted env tokens toks → parser toks = none →
      Gives names ph env (.prop (.dynamic parser tokens)) []
  | var (n t) : Gives names ph env (.var n t) []
  | transition (x) : Gives names ph env (.transition x) []
  | animation (y) : Gives names ph env (.animation y) []

/-- The variables a declaration defines. -/
def givesVars : SrcDecl C N T V X Y → List (N × VarTokens N T)
  | .var n t => [(n, t)]
  | _ => []

/-- The transition declaration a declaration is, if it is one. -/
def givesTransitions : SrcDecl C N T V X Y → List X
  | .transition x => [x]
  | _ => []

/-- The animation declaration a declaration is, if it is one. -/
def givesAnimations : SrcDecl C N T V X Y → List Y
  | .animation y => [y]
  | _ => []

/-- The layer names a source mentions, in order. -/
def layerNames : List (Item S M C N T V X Y) → List (List Char)
  | [] => []
  | .layers ls :: rest => ls ++ layerNames rest
  | .rule r :: rest => r.selectors.map (·.layer) ++ layerNames rest

/-- `ds` is the history of layer declarations of a source: the paths of the names it mentions, in
order (un-layered rules mention none).  Every name must be a proper layer path. -/
def LayerHistory (is : List (Item S M C N T V X Y)) (ds : List Path) : Prop :=
  List.Forall₂ (fun (t : List Char) (p : Path) => p.WF ∧ t = p.dotted)
    ((layerNames is).filter (fun t => t ≠ [])) ds

/-- The rules of a source, in order. -/
def rulesOf : List (Item S M C N T V X Y) → List (SrcRule S M C N T V X Y)
  | [] => []
  | .layers _ :: rest => rulesOf rest
  | .rule r :: rest => r :: rulesOf rest

/-- The rule `r` as an element sees it: `isMatch` tells which selectors match. -/
def SeenAs {K W : Type} (spec : S → Nat) (isMatch : CssSelector S M → Bool)
    (gives : SrcDecl C N T V X Y → List (K × W) → Prop) (r : SrcRule S M C N T V X Y)
    (m : MRule K W) : Prop :=
  (∀ p s, (p, s) ∈ m.matching ↔ (p = [] ∨ p.WF) ∧
      ∃ sel ∈ r.selectors, isMatch sel = true ∧ sel.layer = p.dotted ∧ spec sel.selector = s) ∧
  List.Forall₂ gives r.decls m.decls

/-- The text of a layer name written inside `@layer x { … }` (`x = []`: not inside any). -/
def nestName (x name : List Char) : List Char :=
  if x = [] then name else if name = [] then x else x ++ ['.'] ++ name

/-- A rule written inside `@layer x { … }`. -/
def inLayer (x : List Char) (r : SrcRule S M C N T V X Y) : SrcRule S M C N T V X Y :=
  { r with selectors := r.selectors.map fun s => { s with layer := nestName x s.layer } }

/-- The names a declaration refers to exist (for a `var()` declaration: whatever it parses to). -/
def RefsOk (names : C → Option Nat) : SrcDecl C N T V X Y → Prop
  | .prop (.specific r _) => refersTo names r ≠ none
  | .prop (.dynamic parser _) => ∀ toks vals, parser toks = some vals →
      ∀ rv ∈ vals, refersTo names rv.1 ≠ none
  | _ => True

/-- `l'` is `l` without some declarations that fail at computed-value time under `env` -/
inductive DropFailing (env : N → Option (VarTokens N T)) :
    List (SrcDecl C N T V X Y) → List (SrcDecl C N T V X Y) → Prop
  | nil : DropFailing env [] []
  | keep (d) {l l'} : DropFailing env l l' → DropFailing env (d :: l) (d :: l')
  | drop (parser tokens) {l l'} : (∀ toks, Substituted env tokens toks → parser toks = none) →
      DropFailing env l l' → DropFailing env (.prop (.dynamic parser tokens) :: l) l'

/-- two sources equal up to failing declarations -/
inductive ItemDrop (env : N → Option (VarTokens N T)) :
    Item S M C N T V X Y → Item S M C N T V X Y → Prop
  | layers (ls) : ItemDrop env (.layers ls) (.layers ls)
  | rule (sels) {l l'} : DropFailing env l l' → ItemDrop env (.rule ⟨sels, l⟩) (.rule ⟨sels, l'⟩)

/-- all selectors of the rule are in the same layer, as in a parsed source -/
def SameLayer (r : SrcRule S M C N T V X Y) : Prop :=
  ∀ s ∈ r.selectors, ∀ t ∈ r.selectors, s.layer = t.layer

/-- values that result from replacing a placeholder are no placeholders -/
def PhDone (ph : V → PropertyValue V) : Prop := ∀ v w, ph v = .value w → ph w = .value w

end Flair.Spec
