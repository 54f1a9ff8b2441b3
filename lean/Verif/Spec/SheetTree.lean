import Verif.Spec.Loader
import Verif.Model.SheetTree
/-!
# Specification of files that import files

From the model, only the syntax (`Src`, `Part`) is used.
-/
namespace Flair.Spec
open Flair.Sheet Flair.Loader Flair.SheetTree
variable {S M C N T V X Y : Type}

/-- The declarations of a file and of all the files it imports, in the order in which they would be written if every
`@import` were replaced by what it imports, inside `@layer` when it asks for a layer. -/
def treeDecls (rp : S → List S → S) (amp : S) : List (Part S M C N T V X Y) → List (SrcRule S M C N T V X Y)
  | [] => []
  | .own src :: rest => docDecls rp amp [] [] src ++ treeDecls rp amp rest
  | .sheet layer _ parts :: rest =>
    (treeDecls rp amp parts).map (inLayer (layer.getD [])) ++ treeDecls rp amp rest

/-- The layers a file mentions, in order: in its own items, by a `@layer` statement or by a rule in them; and those of the
declarations it imports. -/
def treeLayers (rp : S → List S → S) (amp : S) : List (Part S M C N T V X Y) → List (List Char)
  | [] => []
  | .own src :: rest => docLayers [] src ++ treeLayers rp amp rest
  | .sheet layer _ parts :: rest =>
    ((treeDecls rp amp parts).flatMap fun r => r.selectors.map fun s => nestName (layer.getD []) s.layer) ++
      treeLayers rp amp rest

/-- `ds` is the layer history of the file. -/
def TreeHistory (rp : S → List S → S) (amp : S) (parts : List (Part S M C N T V X Y)) (ds : List Path) : Prop :=
  List.Forall₂ (fun (t : List Char) (p : Path) => p.WF ∧ t = p.dotted)
    ((treeLayers rp amp parts).filter (fun t => t ≠ [])) ds

/-- The items are as the parser gives them (`Proper`), here and in the imported files, and all layers have proper names. -/
def TreeProper (rp : S → List S → S) (amp : S) : List (Part S M C N T V X Y) → Prop
  | [] => True
  | .own src :: rest => Proper src ∧ TreeProper rp amp rest
  | .sheet layer _ parts :: rest =>
    layer ≠ some [] ∧ (∃ ds, TreeHistory rp amp parts ds) ∧ TreeProper rp amp parts ∧ TreeProper rp amp rest

/-- There is an error in the file itself. -/
def FileError : List (Part S M C N T V X Y) → Prop
  | [] => False
  | .own src :: rest => HasError src ∨ FileError rest
  | .sheet _ _ _ :: rest => FileError rest

/-- No imported file is refused because of an error in it. -/
def Tolerated : List (Part S M C N T V X Y) → Prop
  | [] => True
  | .own _ :: rest => Tolerated rest
  | .sheet _ mode parts :: rest => (mode = .returnError → ¬ FileError parts) ∧ Tolerated parts ∧ Tolerated rest

end Flair.Spec
