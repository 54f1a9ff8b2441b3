import Verif.Spec.Loader
/-!
# Blocks that contain something
-/
namespace Flair.Spec
open Flair.Sheet Flair.Loader

variable {S M C N T V X Y : Type}

/-- The source has a rule with valid selectors, or a `@layer` statement, at any depth of valid blocks. -/
inductive HasContent : List (Src S M C N T V X Y) → Prop
  | rule (ss body rest) : HasContent (.rule (some ss) body :: rest)
  | statement (l ls rest) : HasContent (.layerStatement (l :: ls) :: rest)
  | inLayer (name) {inner} (rest) : HasContent inner → HasContent (.layerBlock [name] inner :: rest)
  | inMedia (conds) {inner} (rest) : HasContent inner → HasContent (.mediaBlock conds inner :: rest)
  | later (i) {rest} : HasContent rest → HasContent (i :: rest)

/-- Every `@layer` block of the source has content. -/
def BlocksFilled : List (Src S M C N T V X Y) → Prop
  | [] => True
  | .layerBlock [_] inner :: rest => HasContent inner ∧ BlocksFilled inner ∧ BlocksFilled rest
  | .mediaBlock _ inner :: rest => BlocksFilled inner ∧ BlocksFilled rest
  | _ :: rest => BlocksFilled rest

end Flair.Spec
