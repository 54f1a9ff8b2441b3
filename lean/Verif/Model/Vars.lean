/-!
# Model of `crates/bevy_flair_style/src/vars.rs` (resolution) and of the variable lookup of
`crates/bevy_flair_style/src/systems.rs`
-/
namespace Flair.Vars

/-- `VarOrToken` (vars.rs:80-86); tokens are left abstract. -/
inductive VarOrToken (Name Tok : Type) where
  | var (name : Name)
  | token (t : Tok)
deriving DecidableEq, Repr

/-- `ResolveTokensError` (vars.rs:139-146). -/
inductive ResolveError (Name : Type) where
  | unknownVarName (v : Name)
  | maxRecursionReached
deriving DecidableEq, Repr

variable {Name Tok : Type}

/-- `VarTokens` (vars.rs:108-108). -/
abbrev VarTokens (Name Tok : Type) := List (VarOrToken Name Tok)

/-- `MAX_DEFAULT_RECURSION` (vars.rs:160). -/
def maxDefaultRecursion : Nat := 8

/-- `VarTokens::resolve_recursively_inner` (vars.rs:177-203).  `output` is the mutable vector; the
`for` loop is a left fold that stops at the first error.  `reserve` has no observable effect. -/
def resolveInner (env : Name → Option (VarTokens Name Tok)) :
    Nat → VarTokens Name Tok → List Tok → Except (ResolveError Name) (List Tok)
  | 0, _, _ => .error .maxRecursionReached
  | n + 1, ts, output =>
    ts.foldlM (fun output t =>
      match t with
      | .token t => .ok (output ++ [t])
      | .var v =>
        match env v with
        | none => .error (.unknownVarName v)
        | some inner => resolveInner env n inner output) output

/-- `VarTokens::resolve_recursively` (vars.rs:167-174). -/
def resolve (env : Name → Option (VarTokens Name Tok)) (ts : VarTokens Name Tok) :
    Except (ResolveError Name) (List Tok) :=
  resolveInner env maxDefaultRecursion ts []

/-- `VarResolverParam::get_var_tokens` (systems.rs:630-639): the entity itself, then
`iter_ancestors`, first hit.  `chain` is the entity followed by its ancestors (nearest first);
`vars e` is the content of the entity's `NodeVars`, `none` when it has no such component. -/
def getVarTokens {Entity V : Type} (vars : Entity → Option (Name → Option V)) (chain : List Entity)
    (v : Name) : Option V :=
  chain.findSome? (fun e => (vars e).bind (fun m => m v))

end Flair.Vars
