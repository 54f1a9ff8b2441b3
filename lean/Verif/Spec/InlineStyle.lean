import Verif.Model.InlineStyle
/-!
# What is meant by "an insertion ordered map" and "the declarations of an inline style"
-/
namespace Flair.Spec
open Flair.InlineStyle

/-! ## Operations -/

/-- The operations of the API that change an inline style -/
inductive StyleOp where
  | set (k v : Text)
  | remove (k : Text)

/-- Perform an operation -/
def StyleOp.apply (s : Style) : StyleOp → Style
  | .set k v => InlineStyle.set s k v
  | .remove k => InlineStyle.remove s k

/-- The property an operation is about -/
def StyleOp.key : StyleOp → Text
  | .set k _ => k
  | .remove k => k

/-- The value an operation leaves its property with -/
def StyleOp.val : StyleOp → Option Text
  | .set _ v => some v
  | .remove _ => none

/-- The entries an operation sequence leaves, in order: what a `set` wrote, unless a later operation is about the same
property. -/
def survivors : List StyleOp → List (Text × Text)
  | [] => []
  | .remove _ :: ops => survivors ops
  | .set k v :: ops => if ∃ o ∈ ops, o.key = k then survivors ops else (k, v) :: survivors ops

/-! ## The declarations of a text -/

/-- Only white space -/
def AllWs (ws : Char → Bool) (t : Text) : Prop := ∀ c ∈ t, ws c = true

/-- Neither starts nor ends with white space -/
def Tight (ws : Char → Bool) (t : Text) : Prop :=
  (∀ c, t.head? = some c → ws c = false) ∧ ∀ c, t.getLast? = some c → ws c = false

/-- One piece of a text between semicolons, and the declaration it stands for, if any -/
inductive Piece (ws : Char → Bool) : Text → List (Text × Text) → Prop
  /-- nothing -/
  | blank (p : Text) : AllWs ws p → Piece ws p []
  /-- `name : value`, white space allowed around both; the name ends at the first colon -/
  | decl (a b c d name value : Text) : AllWs ws a → AllWs ws b → AllWs ws c → AllWs ws d →
      Tight ws name → Tight ws value → ':' ∉ name →
      Piece ws (a ++ name ++ b ++ [':'] ++ c ++ value ++ d) [(name, value)]
  /-- a name without a colon: its value is empty -/
  | bare (a b name : Text) : AllWs ws a → AllWs ws b → Tight ws name → name ≠ [] → ':' ∉ name →
      Piece ws (a ++ name ++ b) [(name, [])]

/-- A text and the declarations it stands for, in order -/
inductive Spells (ws : Char → Bool) : Text → List (Text × Text) → Prop
  | last (p : Text) (ds) : ';' ∉ p → Piece ws p ds → Spells ws p ds
  | more (p rest : Text) (ds ds') : ';' ∉ p → Piece ws p ds → Spells ws rest ds' →
      Spells ws (p ++ [';'] ++ rest) (ds ++ ds')

/-- A name and a value that can be written in one declaration: no white space at the ends, no semicolon, no colon in the
name. -/
def Writable (ws : Char → Bool) (p : Text × Text) : Prop :=
  Tight ws p.1 ∧ Tight ws p.2 ∧ ':' ∉ p.1 ∧ ';' ∉ p.1 ∧ ';' ∉ p.2

/-! ## Styles and their parse problems -/

/-- Nothing is reported for this style: no error, no `!important`. -/
def Clean {I : Type} (parse : Text → List (Parsed I)) (s : Style) : Prop :=
  ∀ p ∈ parse (cssText s), ∃ i, p = .item i false

/-- What the declarations of a style add to its ruleset -/
def itemsOf {I : Type} (parse : Text → List (Parsed I)) (s : Style) : List I :=
  (parse (cssText s)).filterMap fun
    | .item i _ => some i
    | .error => none

/-- A history: each run of the system sees the entities its query matches at that moment. -/
inductive Reach {E I : Type} [DecidableEq E] (parse : Text → List (Parsed I)) :
    World E I → List (Event E) → World E I → Prop
  | done (w) : Reach parse w [] w
  | write (w e s evs w') : Reach parse (w.event parse (.write e s)) evs w' → Reach parse w (.write e s :: evs) w'
  | remove (w e evs w') : Reach parse (w.event parse (.remove e)) evs w' → Reach parse w (.remove e :: evs) w'
  | run (w order evs w') : w.Query order → Reach parse (w.event parse (.run order)) evs w' →
      Reach parse w (.run order :: evs) w'

/-- No components yet -/
def freshWorld (E I : Type) : World E I := ⟨fun _ => none, fun _ => false, fun _ => none⟩

/-- The entity an event writes the inline style of, or takes it from -/
def Touches {E : Type} (e : E) : Event E → Prop
  | .write x _ => x = e
  | .remove x => x = e
  | .run _ => False

end Flair.Spec
