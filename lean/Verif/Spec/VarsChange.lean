import Verif.Model.VarsChange
import Verif.Props.Tree
/-!
# Specification: values follow the variables
-/
namespace Flair.Spec
open Flair.Tree Flair.VarsChange

variable {E M N T V A K : Type}

/-- The variables a node sees: for every name, the definition of the nearest node, itself included. -/
def Sees (m : Maps M N T A) (st : St E M N T V A K) (e : E) (env : N → Option T) : Prop :=
  ∀ v, NearestDef st.forest (fun x => if st.styled x then m.get (st.vars x) v else none) e (env v)

/-- The node defines the variables its rules define, and its values are those its declarations give with the variables it
sees now. -/
def Follows (m : Maps M N T A) (st : St E M N T V A K) (e : E) : Prop :=
  st.vars e = (st.rules e).own ∧ ∃ env, Sees m st e env ∧ st.values e = some ((st.rules e).decl env)

/-- The hierarchy stays well formed, and only nodes that are noted as moved get another parent or have an ancestor that
does (only leaves are moved or added); a modified sheet is that of all nodes below its nodes. -/
def Settled (f : Forest E) (styled : E → Bool) : List (Event E M N T V A K) → Prop
  | [] => True
  | .rules _ _ :: es => Settled f styled es
  | .frame _ :: es => Settled f styled es
  | .modified s _ :: es => (∀ x y, styled x = true → styled y = true → s x = true → f.Anc x y → s y = true) ∧ Settled f styled es
  | .tree f' moved :: es => f'.WF ∧
      (∀ e a, styled e = true → moved e = false → (a = e ∨ f.Anc a e) → f'.parent a = f.parent a) ∧ Settled f' styled es

end Flair.Spec
