import Verif.Model.Loader
/-!
# Model of the loading of files that import files

`crates/bevy_flair_css_parser/src/loader.rs`, `AssetLoader::load`, on the block structure of Model/Loader.  The text of the
files and paths is in Model/File (C82-C85); here the files that are imported are given with the import, so that the
imports are a finite tree (a file that imports itself does not load, C84).
-/
namespace Flair.SheetTree
open Flair.Sheet Flair.Layers Flair.Vars Flair.Values Flair.Loader

/-- The contents of a file: items of its own, and `@import` rules (imports_parser.rs:11-52, parser.rs:497-562), each with
the layer it asks for, the error mode and the contents of the file it imports. -/
inductive Part (S M C N T V X Y : Type) where
  | own (src : List (Src S M C N T V X Y))
  | sheet (layer : Option Name) (mode : ErrorMode) (parts : List (Part S M C N T V X Y))

variable {S M C N T V X Y : Type} [DecidableEq N]

/-- The end of `AssetLoader::load` (loader.rs:133-150): `load_stylesheet` and `build`.  Outer `none`: panic; inner `none`:
an error. -/
def finish (names : C → Option Nat) (typeOk : Nat → V → Bool) (spec : S → Nat) (ph : V → PropertyValue V)
    (rp : S → List S → S) (amp : S) (mode : ErrorMode) (src : List (Src S M C N T V X Y)) :
    Option (Option (StyleSheet S M C N T V X Y)) :=
  match loadStylesheet rp amp mode src with
  | none => none
  | some none => some none
  | some (some b) =>
    match b.build names typeOk spec ph with
    | none => none
    | some (.error _) => some none
    | some (.ok sh) => some (some sh)

/-- The loop over the imports (loader.rs:122-130): the items of a file with the imported sheets loaded; the first import
that fails makes the file fail. -/
def loadImported (names : C → Option Nat) (typeOk : Nat → V → Bool) (spec : S → Nat) (ph : V → PropertyValue V)
    (rp : S → List S → S) (amp : S) : List (Part S M C N T V X Y) → Option (Option (List (Src S M C N T V X Y)))
  | [] => some (some [])
  | .own src :: rest => (loadImported names typeOk spec ph rp amp rest).map (·.map (src ++ ·))
  | .sheet layer mode parts :: rest =>
    match loadImported names typeOk spec ph rp amp parts with
    | none => none
    | some none => some none
    | some (some src) =>
      match finish names typeOk spec ph rp amp mode src with
      | none => none
      | some none => some none
      | some (some o) => (loadImported names typeOk spec ph rp amp rest).map (·.map (.importSheet o layer :: ·))

/-- `AssetLoader::load` (loader.rs:108-151). -/
def loadTree (names : C → Option Nat) (typeOk : Nat → V → Bool) (spec : S → Nat) (ph : V → PropertyValue V)
    (rp : S → List S → S) (amp : S) (mode : ErrorMode) (parts : List (Part S M C N T V X Y)) :
    Option (Option (StyleSheet S M C N T V X Y)) :=
  match loadImported names typeOk spec ph rp amp parts with
  | none => none
  | some none => some none
  | some (some src) => finish names typeOk spec ph rp amp mode src

end Flair.SheetTree
