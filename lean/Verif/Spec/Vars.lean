import Verif.Model.Vars
/-!
# Specification of `var()` substitution

Uses from the model only the syntax of token lists (`VarOrToken`).
-/
namespace Flair.Spec
open Flair.Vars
variable {Name Tok : Type}

/-- Full substitution, without any limit: every reference is replaced, in place, by the
substitution of its definition. -/
inductive Subst (env : Name → Option (VarTokens Name Tok)) : VarTokens Name Tok → List Tok → Prop
  | nil : Subst env [] []
  | token (t ts out) : Subst env ts out → Subst env (.token t :: ts) (t :: out)
  | var (v ts inner o1 o2) : env v = some inner → Subst env inner o1 → Subst env ts o2 →
      Subst env (.var v :: ts) (o1 ++ o2)

/-- `vs` is a chain of nested references starting in `ts`: the first is written in `ts`, each next
one is written in the definition of the one before. -/
def RefChain (env : Name → Option (VarTokens Name Tok)) : VarTokens Name Tok → List Name → Prop
  | _, [] => True
  | ts, v :: vs => .var v ∈ ts ∧ (vs = [] ∨ ∃ inner, env v = some inner ∧ RefChain env inner vs)

/-- `v` is used, directly or through other variables, by `ts`. -/
def Uses (env : Name → Option (VarTokens Name Tok)) (ts : VarTokens Name Tok) (v : Name) : Prop :=
  ∃ vs, RefChain env ts (vs ++ [v])

end Flair.Spec
