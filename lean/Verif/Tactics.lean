import Mathlib.Tactic.Tauto
import Mathlib.Tactic.Set
import Mathlib.Tactic.Use
import Mathlib.Tactic.ByContra
import Mathlib.Tactic.Push
import Mathlib.Data.List.Induction
/-! Tactic imports shared by the proof files (no definitions, no theorems). -/
