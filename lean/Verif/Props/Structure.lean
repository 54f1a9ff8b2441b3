import Verif.Proofs.Structure2
/-!
# C85 : styles follow the hierarchy

A history is a list of frames; in each frame entities may be spawned, despawned, moved, reordered, and their data may
change in any way (`FrameOk`).
-/
namespace Flair.Props
set_option linter.unusedSectionVars false
open Flair.Spec Flair.Tree Flair.Structure Flair.Proofs.Structure
open Flair.Invalidation (Flags Comb)
variable {E D A : Type} [DecidableEq E]

private theorem all_sheets {sib : Bool} {n : Nat} {rules : D → Option (SProg D (List Nat))}
    (h : ∃ sheet, rules = sheetsOf n sheet ∧ ∀ d sels, sheet d = some sels →
      (∀ s ∈ sels, SelOk sib s.1) ∧ (sib = true → EdgeFirst sels)) : SheetsOk sib rules := by
  intro d p hp
  obtain ⟨sheet, rfl, h2⟩ := h
  unfold sheetsOf at hp
  rw [Option.map_eq_some_iff] at hp
  obtain ⟨sels, hs, rfl⟩ := hp
  exact ⟨sheetProg_snd sib n sels (h2 d sels hs).1 [] [.self] [] rfl,
    fun hsib => sheetProg_flags n sels ((h2 d sels hs).2 hsib) []⟩

open Classical in
private theorem history (sib : Bool) (w : EWorld E D) (hw : SoundWorld w) (st : SSt E (List Nat)) (hst : AllMarked w st) (n : Nat)
    (rules : D → Option (SProg D (List Nat))) (is : List (SInput E D (List Nat))) (last : SInput E D (List Nat))
    (ok : FramesOk w rules (is ++ [last]))
    (hs : ∀ i ∈ is ++ [last], (∃ sheet, i.rules = sheetsOf n sheet ∧ ∀ d sels, sheet d = some sels →
      (∀ s ∈ sels, SelOk sib s.1) ∧ (sib = true → EdgeFirst sels)) ∧ (sib = true → ParentsLoaded i.world i.rules))
    (hn : Bounded last.world n) (sheet : D → Option (List (SSel D × Nat))) (hl : last.rules = sheetsOf n sheet)
    (e : E) (he : e ∈ last.world.styled) (sels : List (SSel D × Nat)) (hsel : sheet (last.world.data e) = some sels) :
    (frames (w, st) (is ++ [last])).1 = last.world ∧
    (frames (w, st) (is ++ [last])).2.base.active e =
      some ((sels.filter fun s => decide (SelMatches last.world s.1 e)).map Prod.snd) := by
  refine ⟨frames_world is last _, ?_⟩
  have inv : SInv sib w rules st := by
    refine ⟨fun e he _ => hst e he, fun e he p _ hm => ?_, fun _ e he hm => ?_⟩
    · rw [hst e he] at hm; cases hm
    · rw [hst e he] at hm; cases hm
  have := inv_frames (is ++ [last]) hw inv ok (fun ⟨e, he, hm⟩ => by rw [hst e he] at hm; cases hm)
    (sheetsOkAll_of _ fun i hi => ⟨all_sheets (hs i hi).1, (hs i hi).2⟩) last (by simp) e he (sheetProg n sels [] 1)
    (by rw [hl]; unfold sheetsOf; rw [hsel]; rfl)
  rw [this, sheetProg_result hn sels [] 1 [e] _ _ e rfl rfl]
  rfl

open Classical in
/-- C85, for sheets with only child and descendant combinators and without `:first-child` and `:last-child` (tests of
the element and of its ancestors, `:empty`): after every history of spawning, despawning, moving, reordering and
changing elements, the active rules of every element with a loaded sheet are exactly those whose selector it matches
in the present hierarchy.
Missing: sibling combinators and `:first-child`/`:last-child`, for which it is false (`C85_first_child_stale`,
`C85_sibling_stale`) unless the sheet makes every element depend on its children (`C85_edge_first_partial`); the other
structural pseudo classes.  `n`: a bound on the depth of the tree and the number of siblings. -/
theorem C85_upwards_partial (w : EWorld E D) (hw : SoundWorld w) (st : SSt E (List Nat)) (hst : AllMarked w st) (n : Nat)
    (rules : D → Option (SProg D (List Nat))) (is : List (SInput E D (List Nat))) (last : SInput E D (List Nat))
    (ok : FramesOk w rules (is ++ [last]))
    (hs : ∀ i ∈ is ++ [last], ∃ sheet, i.rules = sheetsOf n sheet ∧ ∀ d sels, sheet d = some sels →
      ∀ s ∈ sels, Upwards s.1 ∧ NoEdge s.1)
    (hn : Bounded last.world n) (sheet : D → Option (List (SSel D × Nat))) (hl : last.rules = sheetsOf n sheet)
    (e : E) (he : e ∈ last.world.styled) (sels : List (SSel D × Nat)) (hsel : sheet (last.world.data e) = some sels) :
    (frames (w, st) (is ++ [last])).1 = last.world ∧
    (frames (w, st) (is ++ [last])).2.base.active e =
      some ((sels.filter fun s => decide (SelMatches last.world s.1 e)).map Prod.snd) := by
  refine history false w hw st hst n rules is last ok (fun i hi => ⟨?_, by simp⟩) hn sheet hl e he sels hsel
  obtain ⟨sh, h1, h2⟩ := hs i hi
  exact ⟨sh, h1, fun d sels hd => ⟨fun s hs => by simpa [SelOk] using h2 d sels hd s hs, by simp⟩⟩

open Classical in
/-- C85, with sibling combinators, `:first-child` and `:last-child`: true if every sheet starts with a selector whose
subject starts with `:first-child` or `:last-child` (a workaround: then every element carries the flag that makes its
descendants depend on its children), and every parent is styled by a loaded sheet.  Sibling combinators must not stand
left of a child or descendant combinator. -/
theorem C85_edge_first_partial (w : EWorld E D) (hw : SoundWorld w) (st : SSt E (List Nat)) (hst : AllMarked w st) (n : Nat)
    (rules : D → Option (SProg D (List Nat))) (is : List (SInput E D (List Nat))) (last : SInput E D (List Nat))
    (ok : FramesOk w rules (is ++ [last]))
    (hs : ∀ i ∈ is ++ [last], ∃ sheet, i.rules = sheetsOf n sheet ∧ ∀ d sels, sheet d = some sels →
      EdgeFirst sels ∧ ∀ s ∈ sels, SidewaysLast s.1)
    (hp : ∀ i ∈ is ++ [last], ParentsLoaded i.world i.rules)
    (hn : Bounded last.world n) (sheet : D → Option (List (SSel D × Nat))) (hl : last.rules = sheetsOf n sheet)
    (e : E) (he : e ∈ last.world.styled) (sels : List (SSel D × Nat)) (hsel : sheet (last.world.data e) = some sels) :
    (frames (w, st) (is ++ [last])).1 = last.world ∧
    (frames (w, st) (is ++ [last])).2.base.active e =
      some ((sels.filter fun s => decide (SelMatches last.world s.1 e)).map Prod.snd) := by
  refine history true w hw st hst n rules is last ok (fun i hi => ⟨?_, fun _ => hp i hi⟩) hn sheet hl e he sels hsel
  obtain ⟨sh, h1, h2⟩ := hs i hi
  exact ⟨sh, h1, fun d sels hd => ⟨fun s hs => by simpa [SelOk] using (h2 d sels hd).2 s hs, fun _ => (h2 d sels hd).1⟩⟩

/-- C85, the matching itself: the program of a sheet finds exactly the selectors the element matches. -/
theorem C85_matching (w : EWorld E D) (n : Nat) (hn : Bounded w n) (sels : List (SSel D × Nat)) (e : E)
    (fl : Flair.Invalidation.FlagMap E) (c : CssMap E) (id : Nat) :
    id ∈ (run w (sheetProg n sels [] 1) [e] fl c).1 ↔ ∃ s, (s, id) ∈ sels ∧ SelMatches w s e := by
  classical
  rw [sheetProg_result hn sels [] 1 [e] fl c e rfl rfl]
  simp only [List.nil_append, List.mem_map, List.mem_filter, decide_eq_true_eq, Prod.exists, exists_eq_right]

/-! ## Examples -/

/-- a world given by its lists of children -/
private def mk (children : Fin 4 → List (Fin 4)) (parent : Fin 4 → Option (Fin 4)) (styled : List (Fin 4)) (data : Fin 4 → Nat) :
    EWorld (Fin 4) Nat where
  forest := { children := children, parent := parent, nodes := [0, 1, 2, 3] }
  prev x := match parent x with
    | none => none
    | some p => ((children p).takeWhile fun y => y != x).getLast?
  next x := match parent x with
    | none => none
    | some p => ((children p).dropWhile fun y => y != x).tail.head?
  styled := styled
  data := data

private theorem takeWhile_ne {x : Fin 4} {l1 l2 : List (Fin 4)} (h : x ∉ l1) :
    (l1 ++ x :: l2).takeWhile (fun y => y != x) = l1 ∧ (l1 ++ x :: l2).dropWhile (fun y => y != x) = x :: l2 := by
  induction l1 with
  | nil => simp
  | cons a l1 ih =>
    have ha : a ≠ x := fun hax => h (by simp [hax])
    have := ih (fun hx => h (by simp [hx]))
    simp [ha, this]

private theorem all4 : ∀ x : Fin 4, x ∈ [(0 : Fin 4), 1, 2, 3] := by decide

private theorem mk_sound {children : Fin 4 → List (Fin 4)} {parent : Fin 4 → Option (Fin 4)} {styled : List (Fin 4)}
    {data : Fin 4 → Nat} (h1 : ∀ p c, c ∈ children p ↔ parent c = some p) (h2 : ∀ p, (children p).Nodup)
    (h3 : ∀ c p, parent c = some p → p < c) : SoundWorld (mk children parent styled data) := by
  refine ⟨⟨h1, h2, ?_, ?_⟩, ?_⟩
  · intro p c _
    exact ⟨all4 p, all4 c⟩
  · have key : ∀ {a b : Fin 4}, (mk children parent styled data).forest.Anc a b → a < b := by
      intro a b h
      induction h with
      | child b hb => exact h3 b a hb
      | step p b _ hb ih => exact Nat.lt_trans (m := p.val) ih (h3 b p hb)
    intro e h
    exact absurd (key h) (Nat.lt_irrefl e.val)
  · intro x
    constructor
    · intro hp
      change parent x = none at hp
      simp [mk, hp]
    · intro p l1 l2 hp hl
      change parent x = some p at hp
      change children p = l1 ++ x :: l2 at hl
      have hx : x ∉ l1 := by
        intro hx
        have := h2 p
        rw [hl, List.nodup_append] at this
        exact this.2.2 x hx x (by simp) rfl
      simp [mk, hp, hl, takeWhile_ne hx, List.head?_eq_getElem?]

/-- nothing but the given changes happens in the frame -/
private def step (w : EWorld (Fin 4) Nat) (moved kids : List (Fin 4)) (rules : Nat → Option (SProg Nat (List Nat))) :
    SInput (Fin 4) Nat (List Nat) where
  world := w
  moved x := moved.contains x
  kids x := kids.contains x
  change _ := ⟨false, false, false⟩
  reset _ := false
  mark _ := false
  rules := rules
  order := [0, 1, 2, 3]
  extra _ := false

private def start : SSt (Fin 4) (List Nat) where
  base := { flags := fun _ => Flags.empty, marker := fun _ => true, active := fun _ => none }
  css _ := {}

/-- data: the class of the element, as a number; all elements use one sheet -/
private def sheetFor (sels : List (SSel Nat × Nat)) : Nat → Option (List (SSel Nat × Nat)) := fun _ => some sels

-- 0 with the child 1
private def w1 := mk (fun x => if x = 0 then [1] else []) (fun x => if x = 1 then some 0 else none) [0, 1] fun x => x
-- 0 with the children 2 (new) and 1
private def w2 := mk (fun x => if x = 0 then [2, 1] else []) (fun x => if x = 1 ∨ x = 2 then some 0 else none) [0, 1, 2] fun x => x
-- 0 with the children 1 and 2
private def w3 := mk (fun x => if x = 0 then [1, 2] else []) (fun x => if x = 1 ∨ x = 2 then some 0 else none) [0, 1, 2] fun x => x
-- 0 with the child 2: 1 has been despawned
private def w4 := mk (fun x => if x = 0 then [2] else []) (fun x => if x = 2 then some 0 else none) [0, 2] fun x => x
-- 1 has got the child 3
private def w5 := mk (fun x => if x = 0 then [1] else if x = 1 then [3] else [])
  (fun x => if x = 1 then some 0 else if x = 3 then some 1 else none) [0, 1, 3] fun x => x

private theorem w1_sound : SoundWorld w1 := mk_sound (by decide) (by decide) (by decide)
private theorem w2_sound : SoundWorld w2 := mk_sound (by decide) (by decide) (by decide)
private theorem w3_sound : SoundWorld w3 := mk_sound (by decide) (by decide) (by decide)
private theorem w4_sound : SoundWorld w4 := mk_sound (by decide) (by decide) (by decide)
private theorem w5_sound : SoundWorld w5 := mk_sound (by decide) (by decide) (by decide)

private theorem alone_iff (w : EWorld (Fin 4) Nat) (x : Fin 4) :
    Alone w.forest x ↔ (w.forest.parent x = none ∧ w.forest.children x = []) := Iff.rfl

private instance (w : EWorld (Fin 4) Nat) (x : Fin 4) : Decidable (Alone w.forest x) :=
  inferInstanceAs (Decidable (w.forest.parent x = none ∧ w.forest.children x = []))

private theorem frameOk {w w' : EWorld (Fin 4) Nat} {moved kids : List (Fin 4)} {rules0 rules : Nat → Option (SProg Nat (List Nat))}
    (hr : rules0 = rules) (h : SoundWorld w') (h1 : ∀ x, w'.data x = w.data x)
    (h2 : ∀ x, w'.forest.parent x ≠ w.forest.parent x → moved.contains x = true)
    (h3 : ∀ x, w'.forest.children x ≠ w.forest.children x → kids.contains x = true)
    (h4 : ∀ x ∈ w'.styled, x ∉ w.styled → Alone w.forest x) (h5 : ∀ x ∈ w.styled, x ∉ w'.styled → Alone w'.forest x) :
    FrameOk w rules0 (step w' moved kids rules) where
  world := h
  detected x _ _ hne := absurd (h1 x) hne
  moved := h2
  kids := h3
  spawned := h4
  despawned := h5
  visited x _ := all4 x
  tree _ _ _ := rfl
  sheets x _ p hp hne := by subst hr; exact absurd hp hne

private theorem bounded4 {w : EWorld (Fin 4) Nat} (r : Fin 4 → Nat) (hr : ∀ x, r x < 4)
    (h1 : ∀ x y, w.step .parent x = some y → y < x) (h2 : ∀ x y, w.step .prev x = some y → r y < r x) : Bounded w 4 := by
  intro d x l hd hc
  have key : ∀ (l : List (Fin 4)) (x : Fin 4) (r : Fin 4 → Nat), (∀ x y, w.step d x = some y → r y < r x) →
      List.IsChain (fun a b => w.step d a = some b) (x :: l) → l.length ≤ r x := by
    intro l
    induction l with
    | nil => intro x r _ _; exact Nat.zero_le _
    | cons a l ih =>
      intro x r hr hc
      rw [List.isChain_cons_cons] at hc
      have := ih a r hr hc.2
      have := hr x a hc.1
      simp only [List.length_cons]
      omega
  rcases hd with rfl | rfl
  · have := key l x (fun x => x.val) (fun x y h => h1 x y h) hc
    omega
  · have := key l x r h2 hc
    have := hr x
    omega

/-- C85 fails for `:first-child` (F69): with the sheet `.c1:first-child { .. }`, an element of class 1 that was the
first child keeps the style after another element is inserted before it. -/
theorem C85_first_child_stale :
    ∃ (w : EWorld (Fin 4) Nat) (st : SSt (Fin 4) (List Nat)) (rules : Nat → Option (SProg Nat (List Nat)))
      (i last : SInput (Fin 4) Nat (List Nat)) (s : SSel Nat) (e : Fin 4),
      SoundWorld w ∧ AllMarked w st ∧ FramesOk w rules [i, last] ∧ Bounded last.world 4 ∧
      s = .subject [.test (· == 1), .first] ∧
      i.rules = sheetsOf 4 (fun _ => some [(s, 7)]) ∧ last.rules = sheetsOf 4 (fun _ => some [(s, 7)]) ∧
      e ∈ last.world.styled ∧ ParentsLoaded last.world last.rules ∧
      ¬ SelMatches last.world s e ∧ (frames (w, st) [i, last]).2.base.active e = some [7] := by
  refine ⟨w1, start, sheetsOf 4 (sheetFor [(.subject [.test (· == 1), .first], 7)]),
    step w1 [] [] (sheetsOf 4 (sheetFor [(.subject [.test (· == 1), .first], 7)])),
    step w2 [2] [0] (sheetsOf 4 (sheetFor [(.subject [.test (· == 1), .first], 7)])),
    .subject [.test (· == 1), .first], 1, w1_sound, fun _ _ => rfl, ⟨?_, ?_, trivial⟩, ?_, rfl, rfl, rfl, ?_, ?_, ?_, ?_⟩
  · exact frameOk rfl w1_sound (by decide) (by decide) (by decide) (by decide) (by decide)
  · exact frameOk rfl w2_sound (by decide) (by decide) (by decide) (by decide) (by decide)
  · exact bounded4 (fun x => if x = 1 then 1 else 0) (by decide) (by decide) (by decide)
  · decide
  · intro x p hp
    refine ⟨?_, by simp [step, sheetsOf, sheetFor]⟩
    revert x p; decide
  · intro h
    exact h .first (by simp) 2 ⟨by decide, by decide⟩
  · decide +kernel

/-- C85 fails for sibling combinators (F69): with the sheet `.c1 + .c2 { .. }`, an element keeps the style after the
element before it is despawned. -/
theorem C85_sibling_stale :
    ∃ (w : EWorld (Fin 4) Nat) (st : SSt (Fin 4) (List Nat)) (rules : Nat → Option (SProg Nat (List Nat)))
      (i last : SInput (Fin 4) Nat (List Nat)) (s : SSel Nat) (e : Fin 4),
      SoundWorld w ∧ AllMarked w st ∧ FramesOk w rules [i, last] ∧ Bounded last.world 4 ∧
      s = .comb (.subject [.test (· == 1)]) .nextSib [.test (· == 2)] ∧
      i.rules = sheetsOf 4 (fun _ => some [(s, 7)]) ∧ last.rules = sheetsOf 4 (fun _ => some [(s, 7)]) ∧
      e ∈ last.world.styled ∧ ParentsLoaded last.world last.rules ∧
      ¬ SelMatches last.world s e ∧ (frames (w, st) [i, last]).2.base.active e = some [7] := by
  refine ⟨w3, start, sheetsOf 4 (sheetFor [(.comb (.subject [.test (· == 1)]) .nextSib [.test (· == 2)], 7)]),
    step w3 [] [] (sheetsOf 4 (sheetFor [(.comb (.subject [.test (· == 1)]) .nextSib [.test (· == 2)], 7)])),
    step w4 [1] [0] (sheetsOf 4 (sheetFor [(.comb (.subject [.test (· == 1)]) .nextSib [.test (· == 2)], 7)])),
    .comb (.subject [.test (· == 1)]) .nextSib [.test (· == 2)], 2, w3_sound, fun _ _ => rfl, ⟨?_, ?_, trivial⟩, ?_, rfl, rfl,
    rfl, ?_, ?_, ?_, ?_⟩
  · exact frameOk rfl w3_sound (by decide) (by decide) (by decide) (by decide) (by decide)
  · exact frameOk rfl w4_sound (by decide) (by decide) (by decide) (by decide) (by decide)
  · exact bounded4 (fun x => if x = 1 then 1 else 0) (by decide) (by decide) (by decide)
  · decide
  · intro x p hp
    refine ⟨?_, by simp [step, sheetsOf, sheetFor]⟩
    revert x p; decide
  · rintro ⟨_, x, ⟨hx, _⟩, _⟩
    have h0 : w4.prev 2 = none := by decide
    change w4.prev 2 = some x at hx
    rw [h0] at hx
    cases hx
  · decide +kernel

/-- C85_upwards_partial is not vacuous: with `.c0 > .c1:empty { .. }`, an element loses the style when it gets a child. -/
example : (frames (w1, start) ([step w1 [] [] (sheetsOf 4 (sheetFor [(.comb (.subject [.test (· == 0)]) .child [.test (· == 1), .empty], 7)]))] ++
      [step w5 [3] [1] (sheetsOf 4 (sheetFor [(.comb (.subject [.test (· == 0)]) .child [.test (· == 1), .empty], 7)]))])).2.base.active 1 = some [] ∧
    (frames (w1, start) [step w1 [] [] (sheetsOf 4 (sheetFor [(.comb (.subject [.test (· == 0)]) .child [.test (· == 1), .empty], 7)]))]).2.base.active 1
      = some [7] := by
  constructor
  · classical
    have := (C85_upwards_partial w1 w1_sound start (fun _ _ => rfl) 4
      (sheetsOf 4 (sheetFor [(.comb (.subject [.test (· == 0)]) .child [.test (· == 1), .empty], 7)]))
      [step w1 [] [] (sheetsOf 4 (sheetFor [(.comb (.subject [.test (· == 0)]) .child [.test (· == 1), .empty], 7)]))]
      (step w5 [3] [1] (sheetsOf 4 (sheetFor [(.comb (.subject [.test (· == 0)]) .child [.test (· == 1), .empty], 7)])))
      ⟨frameOk rfl w1_sound (by decide) (by decide) (by decide) (by decide) (by decide),
       frameOk rfl w5_sound (by decide) (by decide) (by decide) (by decide) (by decide), trivial⟩
      (by
        intro i hi
        refine ⟨sheetFor [(.comb (.subject [.test (· == 0)]) .child [.test (· == 1), .empty], 7)], ?_, ?_⟩
        · simp only [List.cons_append, List.nil_append, List.mem_cons, List.not_mem_nil, or_false] at hi
          rcases hi with rfl | rfl <;> rfl
        · intro d sels hd s hs
          cases hd
          simp only [List.mem_singleton] at hs
          subst hs
          simp [Upwards, NoEdge])
      (bounded4 (fun _ => 0) (by decide) (by decide) (by decide))
      (sheetFor [(.comb (.subject [.test (· == 0)]) .child [.test (· == 1), .empty], 7)]) rfl 1 (by decide) _ rfl).2
    rw [this]
    have hno : ¬ SelMatches w5 (.comb (.subject [.test (· == 0)]) .child [.test (· == 1), .empty]) 1 := by
      rintro ⟨h, _⟩
      have := h .empty (by simp)
      exact absurd this (by simp [SimpleMatches, w5, mk])
    simp [step, hno]
  · decide +kernel

/-- C85_edge_first_partial is not vacuous: the history of `C85_first_child_stale`, the sheet starting with
`:first-child { .. }`. -/
example : (frames (w1, start) ([step w1 [] [] (sheetsOf 4 (sheetFor [(.subject [.first], 5), (.subject [.test (· == 1), .first], 7)]))] ++
      [step w2 [2] [0] (sheetsOf 4 (sheetFor [(.subject [.first], 5), (.subject [.test (· == 1), .first], 7)]))])).2.base.active 1 = some [] := by
  classical
  have := (C85_edge_first_partial w1 w1_sound start (fun _ _ => rfl) 4
      (sheetsOf 4 (sheetFor [(.subject [.first], 5), (.subject [.test (· == 1), .first], 7)]))
      [step w1 [] [] (sheetsOf 4 (sheetFor [(.subject [.first], 5), (.subject [.test (· == 1), .first], 7)]))]
      (step w2 [2] [0] (sheetsOf 4 (sheetFor [(.subject [.first], 5), (.subject [.test (· == 1), .first], 7)])))
      ⟨frameOk rfl w1_sound (by decide) (by decide) (by decide) (by decide) (by decide),
       frameOk rfl w2_sound (by decide) (by decide) (by decide) (by decide) (by decide), trivial⟩
      (by
        intro i hi
        refine ⟨sheetFor [(.subject [.first], 5), (.subject [.test (· == 1), .first], 7)], ?_, ?_⟩
        · simp only [List.cons_append, List.nil_append, List.mem_cons, List.not_mem_nil, or_false] at hi
          rcases hi with rfl | rfl <;> rfl
        · intro d sels hd
          cases hd
          refine ⟨trivial, ?_⟩
          intro s hs
          simp only [List.mem_cons, List.not_mem_nil, or_false] at hs
          rcases hs with rfl | rfl <;> trivial)
      (by
        intro i hi x p hp
        simp only [List.cons_append, List.nil_append, List.mem_cons, List.not_mem_nil, or_false] at hi
        rcases hi with rfl | rfl
        · exact ⟨by revert x p; decide, by simp [step, sheetsOf, sheetFor]⟩
        · exact ⟨by revert x p; decide, by simp [step, sheetsOf, sheetFor]⟩)
      (bounded4 (fun x => if x = 1 then 1 else 0) (by decide) (by decide) (by decide))
      (sheetFor [(.subject [.first], 5), (.subject [.test (· == 1), .first], 7)]) rfl 1 (by decide) _ rfl).2
  rw [this]
  have hno : ∀ c : List (Simple Nat), .first ∈ c → ¬ SelMatches w2 (.subject c) 1 := by
    intro c hc h
    exact h .first hc 2 ⟨by decide, by decide⟩
  simp [step, hno]

end Flair.Props
