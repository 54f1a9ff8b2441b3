import Verif.Model.Longhand
/-!
# Specification for the keywords of enumerations
-/
namespace Flair.Spec
open Flair.Longhand

/-- Two letters are the same up to the case of ASCII letters. -/
def SameLetter (a b : Char) : Prop := a = b ∨ (a.isUpper ∧ b.toNat = a.toNat + 32) ∨ (b.isUpper ∧ a.toNat = b.toNat + 32)

/-- `s` is the name `v`, up to hyphens and the case of ASCII letters. -/
inductive SpellsName : List Char → List Char → Prop
  | nil : SpellsName [] []
  | hyphen {s v} : SpellsName s v → SpellsName ('-' :: s) v
  | letter {a b s v} : a ≠ '-' → SameLetter a b → SpellsName s v → SpellsName (a :: s) (b :: v)

/-- The names of the variants: no two are the same up to case, and none has a hyphen. -/
structure Variants (vs : List (List Char × Bool)) : Prop where
  distinct : ∀ a ∈ vs, ∀ b ∈ vs, (∃ s, SpellsName s a.1 ∧ SpellsName s b.1) → a = b
  noHyphen : ∀ a ∈ vs, '-' ∉ a.1

/-- The name in the case of CSS: lower-case letters, with a hyphen before what was an upper-case letter (but not at the
beginning). -/
inductive Kebab : Bool → List Char → List Char → Prop
  | nil {b} : Kebab b [] []
  | first {a c v s} : a.isUpper → c.toNat = a.toNat + 32 → Kebab false v s → Kebab true (a :: v) (c :: s)
  | upper {a c v s} : a.isUpper → c.toNat = a.toNat + 32 → Kebab false v s → Kebab false (a :: v) ('-' :: c :: s)
  | lower {b a v s} : ¬ a.isUpper → Kebab false v s → Kebab b (a :: v) (a :: s)

end Flair.Spec
