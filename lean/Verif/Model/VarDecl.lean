import Verif.Model.AnimParse
import Verif.Model.Vars
import Verif.Model.Longhand
/-!
# Model of declarations with variables, from the text to the value

`parse_ruleset_property` (css_parser/src/parser.rs 139-242) with its dynamic path, `parse_var_tokens` (vars.rs 63-89),
and the parsers made by `as_dynamic_parse_var_tokens` (reflect.rs 52-80, shorthand.rs 144-181) and `as_parse_var_tokens`
(parser/animations.rs 542-559).

Texts are lists of css tokens (a function holds its contents).  Printing the resolved tokens and reading the print again
is taken as the identity on tokens: that this is right, and when it is not, is C50 (`Model/CssToken` has the characters).
The flag `seen_var_or_env_functions` is taken as set whenever `var()` or `env()` occurs; when the parser gives up before
it reaches the variable the code refuses the text at once, and the model only when the variables are known.
`carried` says which of the tokens `Tok.other` are hashes, colons or semicolons; the others (blocks in brackets or
braces, urls, ..) are not.
-/
namespace Flair.VarDecl
open Flair.Shorthand Flair.Vars
open Flair.Calc (Res)
open Flair.AnimParse (lower hasVars)

variable {α : Type}

/-- `VarToken` (style/src/vars.rs 11-53): a token that is no function, `Function`, or `EndFunction`. -/
inductive VTok where
  | plain (t : Tok)
  | opens (f : String)
  | closes

/-- `parser.try_parse(parse_important).is_ok()` -/
def importantAhead (ts : List Tok) : Bool :=
  match (do delimIs '!'; identIs "important" : P Unit) ts with
  | .ok _ => true
  | _ => false

/-- `parse_var_fn` (vars.rs 6-22), on the contents of `var(..)`: a single name of at least three characters that begins
with two dashes. -/
def varName : List Tok → Option String
  | [.ident s] =>
    match s.toList with
    | '-' :: '-' :: c :: cs => some (String.ofList (c :: cs))
    | _ => none
  | _ => none

/-- `parse_var_token` (vars.rs 24-48), for tokens other than functions. -/
def plainTok (carried : Nat → Bool) : Tok → Option (VarTokens String VTok)
  | .paren _ => none
  | .other n => if carried n then some [.token (.plain (.other n))] else none
  | t => some [.token (.plain t)]

mutual
/-- `parse_next` of `parse_var_tokens` (vars.rs 64-82), after the check for `!important`, with `parse_var_or_token`
(vars.rs 50-61).  A function is refused when a part of its contents is left over. -/
def flat (carried : Nat → Bool) : Tok → Option (VarTokens String VTok)
  | .func f args =>
    if lower f = "var" then (varName args).map fun n => [.var n]
    else if (flats carried args).2.isEmpty then
      some (.token (.opens f) :: ((flats carried args).1 ++ [.token .closes]))
    else none
  | t => plainTok carried t

/-- The loop `while let Ok(next) = input.try_parse_with(parse_next)` (vars.rs 84-88): the tokens, and what is left. -/
def flats (carried : Nat → Bool) : List Tok → VarTokens String VTok × List Tok
  | [] => ([], [])
  | t :: ts =>
    if importantAhead (t :: ts) then ([], t :: ts)
    else match flat carried t with
      | none => ([], t :: ts)
      | some v => (v ++ (flats carried ts).1, (flats carried ts).2)
end

/-- `consume_as_var_tokens` (parser.rs 88-96). -/
def consume (carried : Nat → Bool) (ts : List Tok) : Res (VarTokens String VTok × Bool) :=
  (important (flats carried ts).2).bind fun r => if r.2.isEmpty then .ok ((flats carried ts).1, r.1) else .err

/-- The value of a variable (parser.rs 428-438): `parse_var_tokens` alone, entirely. -/
def variableTokens (carried : Nat → Bool) (ts : List Tok) : Option (VarTokens String VTok) :=
  if (flats carried ts).2.isEmpty then some (flats carried ts).1 else none

/-- `CssRulesetProperty` (parser.rs 44-60), as far as it comes from `parse_ruleset_property`. -/
inductive Declared (α : Type) where
  | value (a : α) (important : Bool)
  | dynamic (tokens : VarTokens String VTok) (important : Bool)

/-- `parse_ruleset_property` (parser.rs 139-242) for the parser `direct`. -/
def declare (carried : Nat → Bool) (direct : P α) (ts : List Tok) : Res (Declared α) :=
  match entirely (do let v ← direct; let i ← important; pure (v, i)) ts with
  | .ok (v, i) => .ok (.value v i)
  | .err => if hasVars ts then (consume carried ts).bind fun r => .ok (.dynamic r.1 r.2) else .err
  | .panic => .panic

/-- The blocks of the text that `to_css_string` gives for resolved tokens, as the crate cssparser finds them: `stack` are
the functions that are open, each with what came before it; the end closes all of them.  (A closing parenthesis without
function would be a token that no parser takes.) -/
def build : List VTok → List (String × List Tok) → List Tok → List Tok
  | [], [], cur => cur
  | [], (f, before) :: stack, cur => build [] stack (before ++ [.func f cur])
  | .plain t :: ts, stack, cur => build ts stack (cur ++ [t])
  | .opens f :: ts, stack, cur => build ts ((f, cur) :: stack) []
  | .closes :: ts, (f, before) :: stack, cur => build ts stack (before ++ [.func f cur])
  | .closes :: ts, [], cur => build ts [] (cur ++ [.other 0])
termination_by ts stack => (ts.length, stack.length)

/-- The value once the variables are known (style/src/style_sheet.rs, resolving of a dynamic property, then
`as_dynamic_parse_var_tokens`); `late` is the parser of the property there. -/
def evaluate (late : P α) (env : String → Option (VarTokens String VTok)) : Declared α → Res α
  | .value a _ => .ok a
  | .dynamic tokens _ =>
    match resolve env tokens with
    | .ok ts => entirely late (build ts [] [])
    | .error _ => .err

/-- The importance of a declaration. -/
def Declared.isImportant : Declared α → Bool
  | .value _ i => i
  | .dynamic _ i => i

/-- The variables of an element, from the texts they were declared with. -/
def environment (carried : Nat → Bool) (texts : String → Option (List Tok)) (n : String) :
    Option (VarTokens String VTok) := (texts n).bind (variableTokens carried)

end Flair.VarDecl
