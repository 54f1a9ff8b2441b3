import Verif.Model.Report
/-!
# Specification for C97: where an error is in a text
-/
namespace Flair.Spec
open Flair.File (Text byteLen)

/-- The characters that may end a line, for some reader or other -/
def LineBreak (c : Char) : Prop := c = '\n' ∨ c = '\r' ∨ c = '\x0c'

/-- Lines that all end with `\n` or `\r\n` -/
inductive WholeLines : Text → Prop
  | nil : WholeLines []
  | cons {l e rest} : (∀ c ∈ l, ¬ LineBreak c) → e = ['\n'] ∨ e = ['\r', '\n'] → WholeLines rest →
      WholeLines (l ++ e ++ rest)

/-- The place between `left` and `right` in a line of the text `before ++ left ++ right ++ after`. -/
structure InLine (before left right after : Text) : Prop where
  lines : WholeLines before
  left : ∀ c ∈ left, ¬ LineBreak c
  right : ∀ c ∈ right, ¬ LineBreak c
  stop : after = [] ∨ ∃ t, after = '\n' :: t ∨ after = '\r' :: '\n' :: t

/-- The bytes from `a` to `b` of the text, which are whole characters -/
def Covers (text : Text) (a b : Nat) (part : Text) : Prop :=
  ∃ x y, text = x ++ part ++ y ∧ byteLen x = a ∧ b = a + byteLen part

end Flair.Spec
