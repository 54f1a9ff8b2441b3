import Verif.Model.Selector
/-!
# The matcher as a program over the elements

`matches_selector` (crates/bevy_flair_style/src/css_selector/mod.rs:463-481) hands a selector to the crate `selectors`,
which asks the element through the `Element` interface of css_selector/element.rs; each move records at the element it
reaches that somebody looked at it.  `Model/Selector.lean` has the answer, this file the questions, as a program of
`Model/Invalidation.lean`: selectors are matched from the right to the left, combinators try one candidate after the
other.  Simplifications: the crate stops some of the searches earlier (it then looks at fewer elements); `:has()` is left
out.  `n`: more than the longest chain of moves.
-/
namespace Flair.Matcher
open Flair.Tree Flair.Invalidation Flair.Selector
variable {A X Y : Type}

/-- A part of a program: given the number of handles known, it continues with its result and the new number. -/
def Act (A X : Type) := Nat → (X → Nat → Prog NodeData A) → Prog NodeData A

instance : Monad (Act A) where
  pure x := fun len k => k x len
  bind a f := fun len k => a len fun x len' => f x len' k

/-- Reads the data of a handle (element.rs:193-251, 261-288) -/
def readA (h : Nat) : Act A (Option NodeData) := fun len k => .read h fun d => k d len

/-- `is_empty` (element.rs:253-259) -/
def emptyA (h : Nat) : Act A Bool := fun len k => .isEmpty h fun b => k b len

/-- A move (element.rs:143-191); the new handle -/
def moveA (d : Dir) (h : Nat) : Act A (Option Nat) := fun len k =>
  .move d h fun found => if found then k (some len) (len + 1) else k none len

/-- The elements of repeated moves (`chain`) -/
def chainA (d : Dir) : Nat → Nat → Act A (List Nat)
  | 0, _ => pure []
  | n + 1, h => do
    match ← moveA d h with
    | none => pure []
    | some x => do
      let xs ← chainA d n x
      pure (x :: xs)

/-- The second part only if the first holds (`bothM`) -/
def bothA (a b : Act A (Option Bool)) : Act A (Option Bool) := do
  match ← a with
  | some true => b
  | r => pure r

/-- The second part only if the first does not hold (`eitherM`) -/
def eitherA (a b : Act A (Option Bool)) : Act A (Option Bool) := do
  match ← a with
  | some false => b
  | r => pure r

/-- One move and a test; nothing there: no -/
def onceA (d : Dir) (test : Nat → Act A (Option Bool)) (h : Nat) : Act A (Option Bool) := do
  match ← moveA d h with
  | none => pure (some false)
  | some x => test x

/-- Moves until a test holds -/
def walkA (d : Dir) (test : Nat → Act A (Option Bool)) : Nat → Nat → Act A (Option Bool)
  | 0, _ => pure (some false)
  | n + 1, h => do
    match ← moveA d h with
    | none => pure (some false)
    | some x => eitherA (test x) (walkA d test n x)

/-- How many handles pass the test (`countM`) -/
def countA (test : Nat → Act A (Option Bool)) : List Nat → Act A (Option Nat)
  | [] => pure (some 0)
  | x :: xs => do
    match ← test x with
    | none => pure none
    | some b => do
      let n ← countA test xs
      pure (n.map fun n => if b then n + 1 else n)

/-- One element, with the data `d`: tests of the own data are the same in any world. -/
def single (d : NodeData) : SWorld Unit where
  forest := ⟨fun _ => [], fun _ => none, [()]⟩
  prev _ := none
  next _ := none
  styled := [()]
  data _ := d

/-- A test of the own data of an element (element.rs:193-251, 261-288) -/
def ownTest (s : Simple) (d : NodeData) : Option Bool := matchSimple (single d) none s ()

/-- `is_same_type` (element.rs:228-230) -/
def sameType (d o : NodeData) : Bool := d.typeName.isSome && d.typeName == o.typeName

/-- The direction in which an `nth` selector counts -/
def nthDir (fromEnd : Bool) : Dir := if fromEnd then .next else .prev

mutual
/-- `matches_simple_selector` (crate `selectors`) at a handle -/
def simpleA (n : Nat) : Simple → Nat → Act A (Option Bool)
  | .empty, h => do
    let b ← emptyA h
    pure (some b)
  | .nth a b fromEnd, h =>
    if a = 0 ∧ b = 1 then do
      let r ← moveA (nthDir fromEnd) h
      pure (some r.isNone)
    else do
      let l ← chainA (nthDir fromEnd) n h
      pure (some (matchesIndex a b (1 + l.length)))
  | .nthOfType a b fromEnd, h => do
    let d ← readA h
    let l ← chainA (nthDir fromEnd) n h
    let c ← countA (fun x => do
      let o ← readA x
      pure (d.bind fun d => o.map fun o => sameType d o)) l
    pure (c.map fun (c : Nat) => matchesIndex a b (1 + (c : Int)))
  | .nthOf a b fromEnd sels, h =>
    bothA (anySelA n sels h) do
      let l ← chainA (nthDir fromEnd) n h
      let c ← countA (fun x => anySelA n sels x) l
      pure (c.map fun (c : Nat) => matchesIndex a b (1 + (c : Int)))
  | .not sels, h => do
    let r ← anySelA n sels h
    pure (r.map (!·))
  | .is sels, h => anySelA n sels h
  | .where_ sels, h => anySelA n sels h
  | .has _, _ => pure (some false)
  | s, h => do
    let d ← readA h
    pure (d.bind (ownTest s))
/-- `matches_compound_selector` -/
def compoundA (n : Nat) : Compound → Nat → Act A (Option Bool)
  | .nil, _ => pure (some true)
  | .cons s c, h => bothA (simpleA n s h) (compoundA n c h)
/-- `matches_complex_selector` -/
def selA (n : Nat) : Sel → Nat → Act A (Option Bool)
  | .subject c, h => compoundA n c h
  | .link l k c, h =>
    bothA (compoundA n c h)
      (match k with
      | .child => onceA .parent (fun x => selA n l x) h
      | .desc => walkA .parent (fun x => selA n l x) n h
      | .next => onceA .prev (fun x => selA n l x) h
      | .later => walkA .prev (fun x => selA n l x) n h
      | .pseudo => onceA .parent (fun x => selA n l x) h)
/-- `list_matches_complex_selector` -/
def anySelA (n : Nat) : Sels → Nat → Act A (Option Bool)
  | .nil, _ => pure (some false)
  | .cons s ss, h => eitherA (selA n s h) (anySelA n ss h)
end

/-- All the selectors of a sheet in turn (`get_matching_ruleset_ids_for_element`, style_sheet.rs:294-309) -/
def sheetA (n : Nat) : List Sel → Act A (List (Option Bool))
  | [] => pure []
  | s :: ss => do
    let r ← selA n s 0
    let rs ← sheetA n ss
    pure (r :: rs)

/-- The program that matches the selectors on one element (its handle is 0) -/
def matchProg (n : Nat) (sels : List Sel) : Prog NodeData (List (Option Bool)) := sheetA n sels 1 fun r _ => .ret r

end Flair.Matcher
