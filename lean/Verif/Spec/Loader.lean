import Verif.Spec.Cascade
import Verif.Model.Loader
/-!
# Specification of nested sources

From the model, only the syntax of sources (`Src`, `BodySrc`) is used.  `rp s parents` is the
selector `s` with `&` standing for `parents`; `amp` is the selector `&`.
-/
namespace Flair.Spec
open Flair.Sheet Flair.Loader

variable {S M C N T V X Y : Type}

/-- The declarations of a rule body in the order in which they are written, each as a rule of its
own: under the selectors it is nested in, with all the enclosing media conditions, in the layer that
joins all the enclosing layers.  Erroneous declarations and rules with erroneous selectors are left
out. -/
def bodyDecls (rp : S → List S → S) (amp : S) (layer : List Char) (media : List M) (sels : List S) :
    List (BodySrc S M C N T V X Y) → List (SrcRule S M C N T V X Y)
  | [] => []
  | .decls ds :: rest =>
    ds.map (fun d => ⟨sels.map fun s => ⟨layer, media, s⟩, [d]⟩) ++ bodyDecls rp amp layer media sels rest
  | .error :: rest => bodyDecls rp amp layer media sels rest
  | .rule none _ :: rest => bodyDecls rp amp layer media sels rest
  | .rule (some ss) body :: rest =>
    bodyDecls rp amp layer media (ss.map fun s => rp s sels) body ++
      bodyDecls rp amp layer media sels rest
  | .media conds body :: rest =>
    bodyDecls rp amp layer (media ++ conds) [rp amp sels] body ++
      bodyDecls rp amp layer media sels rest
  | .layer name body :: rest =>
    bodyDecls rp amp (nestName layer name) media [rp amp sels] body ++
      bodyDecls rp amp layer media sels rest

/-- The declarations of a source, in the order in which they are written (see `bodyDecls`). -/
def docDecls (rp : S → List S → S) (amp : S) (layer : List Char) (media : List M) :
    List (Src S M C N T V X Y) → List (SrcRule S M C N T V X Y)
  | [] => []
  | .layerBlock [name] inner :: rest =>
    docDecls rp amp (nestName layer name) media inner ++ docDecls rp amp layer media rest
  | .mediaBlock conds inner :: rest =>
    docDecls rp amp layer (media ++ conds) inner ++ docDecls rp amp layer media rest
  | .rule (some ss) body :: rest =>
    bodyDecls rp amp layer media ss body ++ docDecls rp amp layer media rest
  | _ :: rest => docDecls rp amp layer media rest

/-- The layers opened inside a rule body, in order. -/
def bodyLayers (layer : List Char) : List (BodySrc S M C N T V X Y) → List (List Char)
  | [] => []
  | .rule (some _) body :: rest => bodyLayers layer body ++ bodyLayers layer rest
  | .media _ body :: rest => bodyLayers layer body ++ bodyLayers layer rest
  | .layer name body :: rest =>
    nestName layer name :: bodyLayers (nestName layer name) body ++ bodyLayers layer rest
  | _ :: rest => bodyLayers layer rest

/-- The layers a source mentions, in order: by a `@layer` statement or by a rule in them. -/
def docLayers (layer : List Char) : List (Src S M C N T V X Y) → List (List Char)
  | [] => []
  | .layerStatement ls :: rest => ls.map (nestName layer) ++ docLayers layer rest
  | .layerBlock [name] inner :: rest => docLayers (nestName layer name) inner ++ docLayers layer rest
  | .mediaBlock _ inner :: rest => docLayers layer inner ++ docLayers layer rest
  | .rule (some _) body :: rest => layer :: bodyLayers layer body ++ docLayers layer rest
  | _ :: rest => docLayers layer rest

/-- `ds` is the layer history of the source. -/
def DocHistory (src : List (Src S M C N T V X Y)) (ds : List Path) : Prop :=
  List.Forall₂ (fun (t : List Char) (p : Path) => p.WF ∧ t = p.dotted)
    ((docLayers [] src).filter (fun t => t ≠ [])) ds

/-- The layers a source mentions in CSS: as `docLayers`, and a block declares its layer where it is
written, whatever it contains. -/
def cssLayers (layer : List Char) : List (Src S M C N T V X Y) → List (List Char)
  | [] => []
  | .layerStatement ls :: rest => ls.map (nestName layer) ++ cssLayers layer rest
  | .layerBlock [name] inner :: rest =>
    nestName layer name :: cssLayers (nestName layer name) inner ++ cssLayers layer rest
  | .mediaBlock _ inner :: rest => cssLayers layer inner ++ cssLayers layer rest
  | .rule (some _) body :: rest => layer :: bodyLayers layer body ++ cssLayers layer rest
  | _ :: rest => cssLayers layer rest

/-- `ds` is the layer history of the source in CSS. -/
def CssHistory (src : List (Src S M C N T V X Y)) (ds : List Path) : Prop :=
  List.Forall₂ (fun (t : List Char) (p : Path) => p.WF ∧ t = p.dotted)
    ((cssLayers [] src).filter (fun t => t ≠ [])) ds

/-- No selector list is empty and no nested layer has an empty name (the parser gives neither). -/
def BodyProper : List (BodySrc S M C N T V X Y) → Prop
  | [] => True
  | .decls _ :: rest => BodyProper rest
  | .error :: rest => BodyProper rest
  | .rule sels body :: rest => sels ≠ some [] ∧ BodyProper body ∧ BodyProper rest
  | .media _ body :: rest => BodyProper body ∧ BodyProper rest
  | .layer name body :: rest => name ≠ [] ∧ BodyProper body ∧ BodyProper rest

/-- Same for a source, which moreover imports no other sheet. -/
def Proper : List (Src S M C N T V X Y) → Prop
  | [] => True
  | .importSheet _ _ :: _ => False
  | .layerStatement ls :: rest => (∀ l ∈ ls, l ≠ []) ∧ Proper rest
  | .layerBlock names inner :: rest => (∀ l ∈ names, l ≠ []) ∧ Proper inner ∧ Proper rest
  | .mediaBlock _ inner :: rest => Proper inner ∧ Proper rest
  | .rule sels body :: rest => sels ≠ some [] ∧ BodyProper body ∧ Proper rest
  | .error :: rest => Proper rest

/-- A body without its errors: erroneous declarations deleted, nested rules with erroneous selectors
deleted with their whole contents. -/
def cleanBody : List (BodySrc S M C N T V X Y) → List (BodySrc S M C N T V X Y)
  | [] => []
  | .decls ds :: rest => .decls ds :: cleanBody rest
  | .error :: rest => cleanBody rest
  | .rule none _ :: rest => cleanBody rest
  | .rule (some ss) body :: rest => .rule (some ss) (cleanBody body) :: cleanBody rest
  | .media conds body :: rest => .media conds (cleanBody body) :: cleanBody rest
  | .layer name body :: rest => .layer name (cleanBody body) :: cleanBody rest

/-- A source without its errors. -/
def cleanSrc : List (Src S M C N T V X Y) → List (Src S M C N T V X Y)
  | [] => []
  | .importSheet o l :: rest => .importSheet o l :: cleanSrc rest
  | .layerStatement ls :: rest => .layerStatement ls :: cleanSrc rest
  | .layerBlock [name] inner :: rest => .layerBlock [name] (cleanSrc inner) :: cleanSrc rest
  | .layerBlock _ _ :: rest => cleanSrc rest
  | .mediaBlock conds inner :: rest => .mediaBlock conds (cleanSrc inner) :: cleanSrc rest
  | .rule none _ :: rest => cleanSrc rest
  | .rule (some ss) body :: rest => .rule (some ss) (cleanBody body) :: cleanSrc rest
  | .error :: rest => cleanSrc rest

/-- There is an error somewhere in a rule body. -/
inductive BodyError : List (BodySrc S M C N T V X Y) → Prop
  | here (rest) : BodyError (.error :: rest)
  | selectors (body rest) : BodyError (.rule none body :: rest)
  | inRule (sels) {body} (rest) : BodyError body → BodyError (.rule sels body :: rest)
  | inMedia (conds) {body} (rest) : BodyError body → BodyError (.media conds body :: rest)
  | inLayer (name) {body} (rest) : BodyError body → BodyError (.layer name body :: rest)
  | later (i) {rest} : BodyError rest → BodyError (i :: rest)

/-- There is an error somewhere in a source. -/
inductive HasError : List (Src S M C N T V X Y) → Prop
  | here (rest) : HasError (.error :: rest)
  | selectors (body rest) : HasError (.rule none body :: rest)
  | inBody (sels) {body} (rest) : BodyError body → HasError (.rule sels body :: rest)
  | layerNames (names inner rest) : names.length ≠ 1 → HasError (.layerBlock names inner :: rest)
  | inLayer (name) {inner} (rest) : HasError inner → HasError (.layerBlock [name] inner :: rest)
  | inMedia (conds) {inner} (rest) : HasError inner → HasError (.mediaBlock conds inner :: rest)
  | later (i) {rest} : HasError rest → HasError (i :: rest)

open Flair.Values in
/-- A declaration the sheet can be built with: the property exists and a concrete value (once a
placeholder is replaced) has the type of the property. -/
def DeclOk (names : C → Option Nat) (typeOk : Nat → V → Bool) (ph : V → PropertyValue V) :
    SrcDecl C N T V X Y → Prop
  | .prop (.specific r v) => ∃ id, refersTo names r = some id ∧
      ∀ x w, v = .value x → ph x = .value w → typeOk id w = true
  | _ => True

end Flair.Spec
