import Verif.Proofs.Invalidation
/-!
# C43 : style invalidation is complete

A history is a list of frames; in each frame the data of any elements change (classes, attributes, states, ...), in
any way, with any order of the parallel loops, and sheets may get loaded or replaced (`Allowed`).
-/
namespace Flair.Props
set_option linter.unusedSectionVars false
open Flair.Spec Flair.Tree Flair.Invalidation
variable {E D A : Type} [DecidableEq E]

/-- The state before the first frame: every element needs its style calculated. -/
def Fresh (w : World E D) (st : St E A) : Prop := ∀ e ∈ w.styled, st.marker e = true

/-- C43, for matchers that look only where changes are noticed (`Noticed`: siblings of the element, ancestors of the
element or of its siblings, the chain of first children): after every history, the active rules of every element whose
sheet is loaded are the outcome of matching it against the present data of all elements.  (`run` yields the outcome of
the matching; it does not depend on the flags `fl`.)
Missing: matchers that look elsewhere (`A + B C`, `:has()` with a second child), for which it is false, and resets of
only a part of a tree, for which it is false. -/
theorem C43_histories_partial (w : World E D) (hw : Consistent w) (st : St E A) (hst : Fresh w st)
    (rules : D → Option (Prog D A)) (is : List (Input E D A)) (hne : is ≠ []) (ha : AllowedFrom w rules is)
    (hr : ∀ i ∈ is, ∀ d p, i.rules d = some p → Noticed [.self] p) (e : E) (he : e ∈ w.styled) (p : Prog D A)
    (hp : lastRules rules is ((frames (w, st) is).1.data e) = some p) (fl : FlagMap E) :
    (frames (w, st) is).2.active e = some (run (frames (w, st) is).1 p [e] fl).1 := by
  have inv : Inv w rules st :=
    ⟨fun e he _ => hst e he, fun e he p _ hm => by rw [hst e he] at hm; cases hm⟩
  exact (inv_frames hw inv is ha hr).2.2 hne e he p hp fl

/-- Sheets given by their selectors: what each asset id in the data of an element stands for. -/
def sheetsBySelectors (n : Nat) (sheet : D → Option (List (Sel D × Nat))) (d : D) : Option (Prog D (List Nat)) :=
  (sheet d).map fun sels => sheetProg n sels [] 1

open Classical in
/-- C43, for selectors: if in all selectors the sibling combinators stand only between the last compounds (`Tame`),
then after every history the active rules of every element with a loaded sheet are exactly those whose selector it
matches now.  `n`: a bound on the depth of the tree and the number of siblings. -/
theorem C43_selectors_partial (w : World E D) (hw : Consistent w) (st : St E (List Nat)) (hst : Fresh w st)
    (n : Nat) (hn : Bounded w n)
    (rules : D → Option (Prog D (List Nat))) (is : List (Input E D (List Nat))) (last : Input E D (List Nat))
    (ha : AllowedFrom w rules (is ++ [last]))
    (hs : ∀ i ∈ is ++ [last], ∃ sheet, i.rules = sheetsBySelectors n sheet ∧
      ∀ d sels, sheet d = some sels → ∀ s ∈ sels, Tame s.1)
    (sheet : D → Option (List (Sel D × Nat))) (hl : last.rules = sheetsBySelectors n sheet)
    (e : E) (he : e ∈ w.styled) (sels : List (Sel D × Nat)) (hsel : sheet (last.data e) = some sels) :
    (frames (w, st) (is ++ [last])).1.data = last.data ∧
    (frames (w, st) (is ++ [last])).2.active e =
      some ((sels.filter fun s => decide (Matches (frames (w, st) (is ++ [last])).1 s.1 e)).map Prod.snd) := by
  have hdata : ∀ (is : List (Input E D (List Nat))) (s : World E D × St E (List Nat)),
      (frames s (is ++ [last])).1.data = last.data := by
    intro is
    induction is with
    | nil => intro s; rfl
    | cons i is ih => intro s; exact ih _
  have hlast : ∀ (is : List (Input E D (List Nat))) (r : D → Option (Prog D (List Nat))),
      lastRules r (is ++ [last]) = last.rules := by
    intro is
    induction is with
    | nil => intro r; rfl
    | cons i is ih => intro r; exact ih _
  refine ⟨hdata is _, ?_⟩
  have hnot : ∀ i ∈ is ++ [last], ∀ d p, i.rules d = some p → Noticed [.self] p := by
    intro i hi d p hp
    obtain ⟨sh, e1, e2⟩ := hs i hi
    rw [e1] at hp
    unfold sheetsBySelectors at hp
    rw [Option.map_eq_some_iff] at hp
    obtain ⟨ss, h1, rfl⟩ := hp
    exact sheetProg_noticed n ss (e2 d ss h1) [] [.self] rfl
  have hp : lastRules rules (is ++ [last]) ((frames (w, st) (is ++ [last])).1.data e) = some (sheetProg n sels [] 1) := by
    rw [hlast, hdata, hl]
    unfold sheetsBySelectors
    rw [hsel]; rfl
  rw [C43_histories_partial w hw st hst rules (is ++ [last]) (by simp) ha hnot e he _ hp (fun _ => Flags.empty)]
  have inv : Inv w rules st :=
    ⟨fun e he _ => hst e he, fun e he p _ hm => by rw [hst e he] at hm; cases hm⟩
  have hshape := (inv_frames hw inv (is ++ [last]) ha hnot).2.1
  have hb : Bounded (frames (w, st) (is ++ [last])).1 n := by
    intro d x l hd hc
    refine hn d x l hd ?_
    refine hc.imp ?_
    intro a b h
    rw [← step_congr hshape]; exact h
  congr 1
  have := sheetProg_result hb sels [] 1 [e] (fun _ => Flags.empty) e rfl rfl
  rw [List.nil_append] at this
  exact this

/-- C43, the matching itself: the program of a sheet finds exactly the selectors the element matches. -/
theorem C43_matching (w : World E D) (n : Nat) (hn : Bounded w n) (sels : List (Sel D × Nat)) (e : E)
    (fl : FlagMap E) (id : Nat) :
    id ∈ (run w (sheetProg n sels [] 1) [e] fl).1 ↔ ∃ s, (s, id) ∈ sels ∧ Matches w s e := by
  classical
  rw [sheetProg_result hn sels [] 1 [e] fl e rfl rfl]
  simp only [List.nil_append, List.mem_map, List.mem_filter, decide_eq_true_eq, Prod.exists, exists_eq_right]

/-! ## Where it fails -/

/-- A tree: 0 has the children 1 and 2; 2 has the child 3.  Data: the class of the element, as a number. -/
private def exF : Forest Nat where
  children x := if x = 0 then [1, 2] else if x = 2 then [3] else []
  parent x := if x = 1 then some 0 else if x = 2 then some 0 else if x = 3 then some 2 else none
  nodes := [0, 1, 2, 3]

private def exW : World Nat Nat where
  forest := exF
  prev x := if x = 2 then some 1 else none
  next x := if x = 1 then some 2 else none
  styled := [0, 1, 2, 3]
  data x := x

private theorem exF_parent {p c : Nat} (h : exF.parent c = some p) :
    (c = 1 ∧ p = 0) ∨ (c = 2 ∧ p = 0) ∨ (c = 3 ∧ p = 2) := by
  unfold exF at h
  dsimp only at h
  split at h
  · cases h; simp_all
  · split at h
    · cases h; simp_all
    · split at h
      · cases h; simp_all
      · cases h

private theorem exF_wf : exF.WF where
  mem_iff p c := by
    constructor
    · intro h
      unfold exF at h ⊢
      dsimp only at h ⊢
      split at h
      · subst p; simp at h; rcases h with rfl | rfl <;> rfl
      · split at h
        · subst p; simp at h; subst h; rfl
        · cases h
    · intro h
      rcases exF_parent h with ⟨rfl, rfl⟩ | ⟨rfl, rfl⟩ | ⟨rfl, rfl⟩ <;> decide
  nodup p := by
    unfold exF; dsimp only
    split
    · decide
    · split <;> decide
  parent_mem p c h := by
    rcases exF_parent h with ⟨rfl, rfl⟩ | ⟨rfl, rfl⟩ | ⟨rfl, rfl⟩ <;> decide
  acyclic e h := by
    have key : ∀ {a b : Nat}, exF.Anc a b → a < b := by
      intro a b h
      induction h with
      | child b hb => rcases exF_parent hb with ⟨rfl, rfl⟩ | ⟨rfl, rfl⟩ | ⟨rfl, rfl⟩ <;> decide
      | step p b _ hb ih =>
        rcases exF_parent hb with ⟨rfl, rfl⟩ | ⟨rfl, rfl⟩ | ⟨rfl, rfl⟩ <;> omega
    exact absurd (key h) (by omega)

private theorem exW_consistent : Consistent exW where
  wf := exF_wf
  prev x y h := by
    unfold exW at h; dsimp only at h
    split at h
    · cases h; subst x; exact ⟨0, rfl, rfl⟩
    · cases h
  next x y h := by
    unfold exW at h; dsimp only at h
    split at h
    · cases h; subst x; exact ⟨0, rfl, rfl⟩
    · cases h

private def exSt (A : Type) : St Nat A := ⟨fun _ => Flags.empty, fun _ => true, fun _ => none⟩

/-- a frame with new data and the given changes, sheets `r` -/
private def exIn {A : Type} (data : Nat → Nat) (changed : Nat → Bool) (reset : Nat → Bool)
    (r : Nat → Option (Prog Nat A)) : Input Nat Nat A :=
  ⟨data, fun x => ⟨changed x, false, false⟩, reset, fun _ => false, r, [0, 1, 2, 3], fun _ => false⟩

/-- class `a` is 1, `b` is 2, `c` is 3: the selector `.a + .b .c` -/
private def exAdj : Sel Nat := .comb (.comb (.subject (· == 1)) .nextSib (· == 2)) .desc (· == 3)

/-- C43 fails for `.a + .b .c`: elements 1, 2, 3 have classes `a`, `b`, `c`, 3 being a child of 2.  In the second frame
1 loses its class; 3 does not match any more but keeps its active rule, in this frame and, with nothing further
changing, in the next. -/
theorem C43_adjacent_descendant_stale :
    ∃ (w : World Nat Nat) (st : St Nat (List Nat)) (n : Nat) (is : List (Input Nat Nat (List Nat))),
      Consistent w ∧ Fresh w st ∧ AllowedFrom w (fun _ => none) is ∧
      (∀ i ∈ is, i.rules = sheetsBySelectors n fun _ => some [(exAdj, 7)]) ∧ is.length = 3 ∧
      (frames (w, st) (is.take 1)).2.active 3 = some [7] ∧ Matches (frames (w, st) (is.take 1)).1 exAdj 3 ∧
      (frames (w, st) is).2.active 3 = some [7] ∧ ¬ Matches (frames (w, st) is).1 exAdj 3 := by
  let r := sheetsBySelectors 5 fun (_ : Nat) => some [(exAdj, 7)]
  let d1 : Nat → Nat := fun x => if x = 1 then 0 else x
  refine ⟨exW, exSt _, 5, [exIn id (fun _ => false) (fun _ => false) r, exIn d1 (· == 1) (fun _ => false) r,
    exIn d1 (fun _ => false) (fun _ => false) r], exW_consistent, fun _ _ => rfl, ?_, ?_, rfl, ?_, ?_, ?_, ?_⟩
  · refine ⟨⟨?_, fun x h => h, fun _ _ _ => rfl, ?_⟩, ⟨?_, fun x h => h, fun _ _ _ => rfl, ?_⟩,
      ⟨?_, fun x h => h, fun _ _ _ => rfl, ?_⟩, trivial⟩
    · intro x _ h; exact absurd rfl h
    · intro x _ p h; cases h
    · intro x hx h
      by_cases h1 : x = 1
      · subst h1; rfl
      · exact absurd (by show (if x = 1 then 0 else x) = x; rw [if_neg h1]) h
    · intro x _ p h h'; exact absurd h h'
    · intro x _ h; exact absurd rfl h
    · intro x _ p h h'; exact absurd h h'
  · intro i hi
    simp only [List.mem_cons, List.not_mem_nil, or_false] at hi
    rcases hi with rfl | rfl | rfl <;> rfl
  · decide +kernel
  · exact ⟨rfl, 2, .one ⟨rfl, by decide⟩, rfl, 1, ⟨rfl, by decide⟩, rfl⟩
  · decide +kernel
  · rintro ⟨_, x, _, _, y, ⟨hy, _⟩, h1⟩
    change (if x = 2 then some 1 else none) = some y at hy
    split at hy
    · cases hy
      change ((0 : Nat) == 1) = true at h1
      cases h1
    · cases hy

/-- `:has(> .x)` at an element, where class `x` is 5: look at the first child, then at its next siblings (the order in
which the crate `selectors` looks at the children). -/
private def hasChild : Nat → Nat → Nat → Prog Nat (List Nat)
  | 0, _, _ => .ret []
  | n + 1, h, len => .read h fun d =>
    if d = some 5 then .ret [7] else .move .next h fun found => if found then hasChild n len (len + 1) else .ret []

private def hasProg : Prog Nat (List Nat) :=
  .move .child 0 fun found => if found then hasChild 5 1 2 else .ret []

/-- C43 fails for a matcher that looks at the children in order, as for `:has(> .x)`: in the second frame the second
child of 0 gets the class; 0 now matches but its active rules stay empty.  (A change of the first child is noticed.) -/
theorem C43_has_second_child_stale :
    ∃ (w : World Nat Nat) (st : St Nat (List Nat)) (is : List (Input Nat Nat (List Nat))),
      Consistent w ∧ Fresh w st ∧ AllowedFrom w (fun _ => none) is ∧
      (∀ i ∈ is, i.rules = fun _ => some hasProg) ∧
      w.forest.children 0 = [1, 2] ∧ (frames (w, st) is).1.data 2 = 5 ∧
      (run (frames (w, st) is).1 hasProg [0] fun _ => Flags.empty).1 = [7] ∧
      (frames (w, st) is).2.active 0 = some [] := by
  let r : Nat → Option (Prog Nat (List Nat)) := fun _ => some hasProg
  let d1 : Nat → Nat := fun x => if x = 2 then 5 else x
  refine ⟨exW, exSt _, [exIn id (fun _ => false) (fun _ => false) r, exIn d1 (· == 2) (fun _ => false) r],
    exW_consistent, fun _ _ => rfl, ?_, ?_, rfl, rfl, ?_, ?_⟩
  · refine ⟨⟨?_, fun x h => h, fun _ _ _ => rfl, ?_⟩, ⟨?_, fun x h => h, fun _ _ _ => rfl, ?_⟩, trivial⟩
    · intro x _ h; exact absurd rfl h
    · intro x _ p h; cases h
    · intro x hx h
      by_cases h1 : x = 2
      · subst h1; rfl
      · exact absurd (by show (if x = 2 then 5 else x) = x; rw [if_neg h1]) h
    · intro x _ p h h'; exact absurd h h'
  · intro i hi
    simp only [List.mem_cons, List.not_mem_nil, or_false] at hi
    rcases hi with rfl | rfl <;> rfl
  · decide +kernel
  · decide +kernel

/-- the selector `.b > .c` -/
private def exChild : Sel Nat := .comb (.subject (· == 2)) .child (· == 3)

/-- C43 fails when the flags of an element are reset and not those of the elements that looked at it (its sheet is
replaced, a child has a sheet of its own): in the second frame the flags of 2 are reset; in the third 2 loses its class;
3 does not match `.b > .c` any more but keeps its active rule. -/
theorem C43_reset_stale :
    ∃ (w : World Nat Nat) (st : St Nat (List Nat)) (n : Nat) (i1 i2 i3 : Input Nat Nat (List Nat)),
      Consistent w ∧ Fresh w st ∧
      (∀ i ∈ [i1, i2, i3], i.rules = sheetsBySelectors n fun _ => some [(exChild, 7)]) ∧
      Allowed w (fun _ => none) i1 ∧
      (∀ x ∈ w.styled, i2.data x = i1.data x) ∧ (∀ x, i2.reset x = true ↔ x = 2) ∧
      (∀ x ∈ w.styled, i3.data x ≠ i2.data x → (i3.change x).data = true) ∧ (∀ x ∈ w.styled, x ∈ i3.order) ∧
      (frames (w, st) [i1, i2, i3]).2.active 3 = some [7] ∧
      ¬ Matches (frames (w, st) [i1, i2, i3]).1 exChild 3 := by
  let r := sheetsBySelectors 5 fun (_ : Nat) => some [(exChild, 7)]
  let d1 : Nat → Nat := fun x => if x = 2 then 0 else x
  refine ⟨exW, exSt _, 5, exIn id (fun _ => false) (fun _ => false) r, exIn id (fun _ => false) (· == 2) r,
    exIn d1 (· == 2) (fun _ => false) r, exW_consistent, fun _ _ => rfl, ?_, ?_, fun _ _ => rfl, ?_, ?_, fun x h => h,
    ?_, ?_⟩
  · intro i hi
    simp only [List.mem_cons, List.not_mem_nil, or_false] at hi
    rcases hi with rfl | rfl | rfl <;> rfl
  · refine ⟨?_, fun x h => h, fun _ _ _ => rfl, ?_⟩
    · intro x _ h; exact absurd rfl h
    · intro x _ p h; cases h
  · intro x; simp [exIn]
  · intro x hx h
    by_cases h1 : x = 2
    · subst h1; rfl
    · exact absurd (by show (if x = 2 then 0 else x) = x; rw [if_neg h1]) h
  · decide +kernel
  · rintro ⟨_, x, ⟨hx, _⟩, h1⟩
    change exF.parent 3 = some x at hx
    cases hx
    change ((0 : Nat) == 2) = true at h1
    cases h1

/-! ## Witnesses -/

/-- `C43_selectors_partial`: the selector `.b > .c` is tame, the tree is bounded, and the history in which 2 loses its
class is allowed. -/
example : Tame exChild ∧ Bounded exW 5 ∧ Fresh exW (exSt (List Nat)) ∧
    AllowedFrom exW (fun _ => none) [exIn id (fun _ => false) (fun _ => false) (sheetsBySelectors 5 fun _ => some [(exChild, 7)]),
      exIn (fun x => if x = 2 then 0 else x) (· == 2) (fun _ => false) (sheetsBySelectors 5 fun _ => some [(exChild, 7)])] ∧
    (frames (exW, exSt (List Nat)) [exIn id (fun _ => false) (fun _ => false) (sheetsBySelectors 5 fun _ => some [(exChild, 7)]),
      exIn (fun x => if x = 2 then 0 else x) (· == 2) (fun _ => false)
        (sheetsBySelectors 5 fun _ => some [(exChild, 7)])]).2.active 3 = some [] := by
  refine ⟨by simp [Tame, OnlyUp, exChild], ?_, fun _ _ => rfl, ⟨⟨?_, fun x h => h, fun _ _ _ => rfl, ?_⟩,
    ⟨?_, fun x h => h, fun _ _ _ => rfl, ?_⟩, trivial⟩, ?_⟩
  · intro d x l hd hc
    have key : ∀ l : List Nat, ∀ x, List.IsChain (fun a b => exW.step d a = some b) (x :: l) →
        l = [] ∨ (l.length ≤ x ∧ x < 4) := by
      intro l
      induction l with
      | nil => intro x _; exact .inl rfl
      | cons y l ih =>
        intro x hx
        right
        cases hx with
        | cons_cons h1 h2 =>
          have hxy : y < x ∧ x < 4 := by
            unfold World.step at h1
            rw [Option.filter_eq_some_iff] at h1
            rcases hd with rfl | rfl
            · rcases exF_parent h1.1 with ⟨rfl, rfl⟩ | ⟨rfl, rfl⟩ | ⟨rfl, rfl⟩ <;> omega
            · have h1 := h1.1
              change (if x = 2 then some 1 else none) = some y at h1
              split at h1
              · cases h1; omega
              · cases h1
          rcases ih y h2 with rfl | h
          · simp only [List.length_cons, List.length_nil]; omega
          · simp only [List.length_cons]; omega
    rcases key l x hc with rfl | h
    · decide
    · omega
  · intro x _ h; exact absurd rfl h
  · intro x _ p h; cases h
  · intro x hx h
    by_cases h1 : x = 2
    · subst h1; rfl
    · exact absurd (by show (if x = 2 then 0 else x) = x; rw [if_neg h1]) h
  · intro x _ p h h'; exact absurd h h'
  · decide +kernel

end Flair.Props
