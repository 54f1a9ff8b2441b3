import Verif.Proofs.Selector
/-!
# C90: selectors mean what they say
-/
namespace Flair.Props
open Flair.Tree Flair.Selector Flair.Spec Flair.Proofs.Selector
variable {E : Type} [DecidableEq E]

/-- For every hierarchy, every selector without a bare `|`, and every styled element: the matching does not crash, and
finds a match exactly when the selector says so of the element, `::before` and `::after` counting as elements. -/
theorem C90_every_partial (w : SWorld E) (ok : ElementsOk w) (s : Sel) (hs : SelOk false s) (e : E) (he : e ∈ w.styled) :
    matchesSelector w s e ≠ none ∧ (matchesSelector w s e = some true ↔ SelMeans w everyOne noParent none s e) := by
  unfold matchesSelector
  rcases sel_says ok none s e he hs with ⟨h, e⟩ | ⟨h, e⟩ <;> simp [e, h]

/-- Without pseudo elements in the hierarchy this is the meaning of CSS. -/
theorem C90_exact_partial (w : SWorld E) (ok : ElementsOk w) (hp : ∀ x, (w.data x).pseudo = none)
    (s : Sel) (hs : SelOk false s) (e : E) (he : e ∈ w.styled) :
    matchesSelector w s e = some true ↔ SelMeans w (realOnes w) noParent none s e := by
  have : realOnes w = everyOne := by funext x; simp [realOnes, everyOne, hp x]
  rw [this]
  exact (C90_every_partial w ok s hs e he).2

private theorem simple_same (w : SWorld E) (anchor : Option E) {s : Simple} {e : E} (h : PlainSimple s)
    (h' : ¬ ∃ l, s = .is l ∨ s = .where_ l ∨ s = .not l) :
    SimpleMeans w everyOne noParent anchor s e ↔ SimpleMeans w (realOnes w) noParent anchor s e := by
  cases s with
  | not l => exact absurd ⟨l, .inr (.inr rfl)⟩ h'
  | is l => exact absurd ⟨l, .inl rfl⟩ h'
  | where_ l => exact absurd ⟨l, .inr (.inl rfl)⟩ h'
  | empty => simp [PlainSimple] at h
  | nth => simp [PlainSimple] at h
  | nthOfType => simp [PlainSimple] at h
  | nthOf => simp [PlainSimple] at h
  | has => simp [PlainSimple] at h
  | _ => simp only [SimpleMeans]

private theorem compound_same (w : SWorld E) (anchor : Option E) : ∀ (c : Compound) (e : E), PlainCompound c → ¬ NestsSels c →
    (CompoundMeans w everyOne noParent anchor c e ↔ CompoundMeans w (realOnes w) noParent anchor c e)
  | .nil, _, _, _ => by simp only [CompoundMeans]
  | .cons s c, e, h, h' => by
    simp only [CompoundMeans]
    rw [PlainCompound] at h
    rw [NestsSels] at h'
    rw [simple_same w anchor h.1 (fun x => h' (.inl x)), compound_same w anchor c e h.2 (fun x => h' (.inr x))]

private theorem linked_same (w : SWorld E) {k : Link} (h : k ≠ .next ∧ k ≠ .later) (e x : E) :
    Linked w everyOne e x k ↔ Linked w (realOnes w) e x k := by
  cases k with
  | next => exact absurd rfl h.1
  | later => exact absurd rfl h.2
  | _ => simp only [Linked]

private theorem linked_real {w : SWorld E} (ok : ElementsOk w) (hl : PseudoLeaves w) {k : Link} (h : k ≠ .next ∧ k ≠ .later)
    {e x : E} (hx : Linked w everyOne e x k) : realOnes w x = true := by
  have key : ∀ c, w.forest.parent c = some x → realOnes w x = true := by
    intro c hc
    have hm := (ok.sound.wf.mem_iff _ _).mpr hc
    by_contra hr
    have : (w.data x).pseudo ≠ none := by simpa [realOnes] using hr
    rw [hl x this] at hm
    simp at hm
  cases k with
  | child => exact key e hx
  | pseudo => exact key e hx
  | desc =>
    have hx' : w.forest.Anc x e := hx
    clear hx
    induction hx' with
    | child e h => exact key e h
    | step p e _ _ ih => exact ih
  | next => exact absurd rfl h.1
  | later => exact absurd rfl h.2

mutual
private theorem simple_real {w : SWorld E} (ok : ElementsOk w) (hl : PseudoLeaves w) (anchor : Option E) :
    ∀ (s : Simple) (e : E), PlainSimple s → realOnes w e = true →
      (SimpleMeans w everyOne noParent anchor s e ↔ SimpleMeans w (realOnes w) noParent anchor s e)
  | .not l, e, h, he => by
    rw [PlainSimple] at h
    simp only [SimpleMeans, sels_real ok hl anchor l e h he]
  | .is l, e, h, he => by
    rw [PlainSimple] at h
    simp only [SimpleMeans, sels_real ok hl anchor l e h he]
  | .where_ l, e, h, he => by
    rw [PlainSimple] at h
    simp only [SimpleMeans, sels_real ok hl anchor l e h he]
  | .parent, _, _, _ => by simp only [SimpleMeans]
  | .universal, _, h, _ | .anyNamespace, _, h, _ | .noNamespace, _, h, _ | .localName _, _, h, _ | .id _, _, h, _
  | .cls _, _, h, _ | .attrExists _, _, h, _ | .attr _ _ _, _, h, _ | .root, _, h, _ | .scope, _, h, _ | .empty, _, h, _
  | .state _, _, h, _ | .nth _ _ _, _, h, _ | .nthOfType _ _ _, _, h, _ | .nthOf _ _ _ _, _, h, _ | .has _, _, h, _
  | .anchor, _, h, _ | .pseudoElement _, _, h, _ => simple_same w anchor h (by simp)
private theorem compound_real {w : SWorld E} (ok : ElementsOk w) (hl : PseudoLeaves w) (anchor : Option E) :
    ∀ (c : Compound) (e : E), PlainCompound c → realOnes w e = true →
      (CompoundMeans w everyOne noParent anchor c e ↔ CompoundMeans w (realOnes w) noParent anchor c e)
  | .nil, _, _, _ => by simp only [CompoundMeans]
  | .cons s c, e, h, he => by
    rw [PlainCompound] at h
    simp only [CompoundMeans, simple_real ok hl anchor s e h.1 he, compound_real ok hl anchor c e h.2 he]
private theorem sel_real {w : SWorld E} (ok : ElementsOk w) (hl : PseudoLeaves w) (anchor : Option E) :
    ∀ (s : Sel) (e : E), PlainSel s → (realOnes w e = true ∨ EndsInPseudo s) →
      (SelMeans w everyOne noParent anchor s e ↔ SelMeans w (realOnes w) noParent anchor s e)
  | .subject c, e, h, he => by
    rw [PlainSel] at h
    rw [EndsInPseudo] at he
    have hc : CompoundMeans w everyOne noParent anchor c e ↔ CompoundMeans w (realOnes w) noParent anchor c e := by
      rcases he with he | he
      · exact compound_real ok hl anchor c e h.1 he
      · exact compound_same w anchor c e h.1 (h.2 he)
    simp only [SelMeans, hc, everyOne, true_or, true_and, he]
  | .link l k c, e, h, he => by
    rw [PlainSel] at h
    rw [EndsInPseudo] at he
    have hc : CompoundMeans w everyOne noParent anchor c e ↔ CompoundMeans w (realOnes w) noParent anchor c e := by
      rcases he with he | he
      · exact compound_real ok hl anchor c e h.2.2.1 he
      · exact compound_same w anchor c e h.2.2.1 (h.2.2.2 he)
    have hx : (∃ x, Linked w everyOne e x k ∧ SelMeans w everyOne noParent anchor l x) ↔
        ∃ x, Linked w (realOnes w) e x k ∧ SelMeans w (realOnes w) noParent anchor l x := by
      refine exists_congr fun x => ?_
      rw [← linked_same w h.2.1]
      refine and_congr_right fun hx => ?_
      exact sel_real ok hl anchor l x h.1 (.inl (linked_real ok hl h.2.1 hx))
    simp only [SelMeans, hc, hx, everyOne, true_or, true_and, he]
private theorem sels_real {w : SWorld E} (ok : ElementsOk w) (hl : PseudoLeaves w) (anchor : Option E) :
    ∀ (s : Sels) (e : E), PlainSels s → realOnes w e = true →
      (AnyMeans w everyOne noParent anchor s e ↔ AnyMeans w (realOnes w) noParent anchor s e)
  | .nil, _, _, _ => by simp only [AnyMeans]
  | .cons s ss, e, h, he => by
    rw [PlainSels] at h
    simp only [AnyMeans, sel_real ok hl anchor s e h.1 (.inl he), sels_real ok hl anchor ss e h.2 he]
end

/-- With pseudo elements, it is the meaning of CSS for the selectors that look neither at siblings nor at children,
on elements, and on pseudo elements when the selector ends in one. -/
theorem C90_pseudo_partial (w : SWorld E) (ok : ElementsOk w) (hl : PseudoLeaves w) (s : Sel) (hs : SelOk false s)
    (hp : PlainSel s) (e : E) (he : e ∈ w.styled) (hr : realOnes w e = true ∨ EndsInPseudo s) :
    matchesSelector w s e = some true ↔ SelMeans w (realOnes w) noParent none s e := by
  rw [(C90_every_partial w ok s hs e he).2]
  exact sel_real ok hl none s e hp hr

omit [DecidableEq E] in
/-- The pseudo classes for states are the six, and each holds when its state does. -/
theorem C90_states (w : SWorld E) (e : E) (name : String) :
    (∀ f, StateNamed name f → ∃ s, stateNamed name = some s ∧ matchState w e s = f (w.data e).state) ∧
    ((stateNamed name).isSome = true → ∃ f, StateNamed name f) := by
  constructor
  · intro f h
    cases h <;> exact ⟨_, rfl, rfl⟩
  · intro h
    unfold stateNamed at h
    split at h
    · next e => subst e; exact ⟨_, .hover⟩
    split at h
    · next e => subst e; exact ⟨_, .active⟩
    split at h
    · next e => subst e; exact ⟨_, .focus⟩
    split at h
    · next e => subst e; exact ⟨_, .focusVisible⟩
    split at h
    · next e => subst e; exact ⟨_, .disabled⟩
    split at h
    · next e => subst e; exact ⟨_, .checked⟩
    · simp at h

/-- The pseudo elements are `::before` and `::after`. -/
theorem C90_pseudo_names (name : String) (p : PseudoElem) :
    pseudoNamed name = some p ↔ (name = "before" ∧ p = .before) ∨ (name = "after" ∧ p = .after) := by
  unfold pseudoNamed
  by_cases h1 : name = "before"
  · subst h1; simp [eq_comm]
  · by_cases h2 : name = "after"
    · subst h2; simp [eq_comm]
    · simp [h1, h2]

omit [DecidableEq E] in
private theorem root_edits (edits : List (ParentEdit E)) (c : ParentComp E) (p : Option E)
    (h0 : c.changed = true → c.parent.isSome = true)
    (h : c.changed = false → c.removed = false → c.parent = p) :
    (edits.foldl ParentComp.edit c).changed = false → (edits.foldl ParentComp.edit c).removed = false →
      (edits.foldl ParentComp.edit c).parent = p := by
  induction edits generalizing c with
  | nil => exact h
  | cons x xs ih =>
    cases x with
    | set q => exact ih _ (by simp [ParentComp.edit]) (by simp [ParentComp.edit])
    | remove =>
      refine ih _ (by simp [ParentComp.edit]) ?_
      simp only [ParentComp.edit, Bool.or_eq_false_iff, Option.isSome_eq_false_iff, Option.isNone_iff_eq_none]
      rintro _ ⟨h1, h2⟩
      cases hc : c.changed with
      | false => rw [← h hc h1, h2]
      | true => simp [h2] at h0; simp [h0] at hc

omit [DecidableEq E] in
/-- In every history, after each pass a node counts as root exactly when it has no parent. -/
theorem C90_root (p : Option E) (r : Bool) (h : RootRun p r) : r = true ↔ p = none := by
  induction h with
  | styled p edits stored => simp [calculateIsRoot]
  | @frame p r edits _ ih =>
    unfold calculateIsRoot
    split
    · simp
    · next h =>
      simp only [Bool.false_or, Bool.or_eq_true, not_or, Bool.not_eq_true] at h
      rw [root_edits edits ⟨p, false, false⟩ p (by simp) (by simp) h.1 h.2]
      exact ih

example : RootRun (some 3) false :=
  RootRun.frame (p := none) (r := true) [.set 3] (RootRun.styled (some 5) [.remove] false)

/-! ## Examples, and where CSS says something else -/

/-- A hierarchy of four entities, all with style data -/
def fourWorld (children : Fin 4 → List (Fin 4)) (parent : Fin 4 → Option (Fin 4)) (data : Fin 4 → NodeData) :
    SWorld (Fin 4) where
  forest := { children := children, parent := parent, nodes := [0, 1, 2, 3] }
  prev x := match parent x with
    | none => none
    | some p => ((children p).takeWhile fun y => y ≠ x).getLast?
  next x := match parent x with
    | none => none
    | some p => ((children p).dropWhile fun y => y ≠ x).tail.head?
  styled := [0, 1, 2, 3]
  data := data

theorem all4 : ∀ x : Fin 4, x ∈ [(0 : Fin 4), 1, 2, 3] := by decide

theorem fourWorld_ok {children : Fin 4 → List (Fin 4)} {parent : Fin 4 → Option (Fin 4)}
    {data : Fin 4 → NodeData} (h1 : ∀ p c, c ∈ children p ↔ parent c = some p) (h2 : ∀ p, (children p).Nodup)
    (h3 : ∀ c p, parent c = some p → p < c) (h4 : ∀ x, (data x).isRoot = true ↔ parent x = none) :
    ElementsOk (fourWorld children parent data) := by
  refine ⟨⟨⟨h1, h2, ?_, ?_⟩, ?_⟩, fun x p _ => ⟨all4 x, all4 p⟩, fun x _ => h4 x⟩
  · intro p c _
    exact ⟨all4 p, all4 c⟩
  · have key : ∀ {a b : Fin 4}, (fourWorld children parent data).forest.Anc a b → a < b := by
      intro a b h
      induction h with
      | child b hb => exact h3 b a hb
      | step p b _ hb ih => exact Nat.lt_trans (m := p.val) ih (h3 b p hb)
    intro e h
    exact absurd (key h) (Nat.lt_irrefl e.val)
  · intro x
    constructor
    · intro hp
      change parent x = none at hp
      simp [fourWorld, hp]
    · intro p l1 l2 hp hl
      change parent x = some p at hp
      change children p = l1 ++ x :: l2 at hl
      have ht := take_before (e := x) (h2 p) hl
      simp only [fourWorld, hp]
      exact ⟨congrArg _ ht.1, congrArg _ ht.2⟩

/-- A panel (0) with a `::before` (1) and two labels (2, 3), the second one disabled. -/
private def panel : SWorld (Fin 4) :=
  fourWorld (fun x => if x = 0 then [1, 2, 3] else []) (fun x => if x = 0 then none else some 0) fun x =>
    if x = 0 then { isRoot := true, classes := ["panel"] }
    else if x = 1 then { pseudo := some .before }
    else if x = 2 then { typeName := some "label" }
    else { typeName := some "label", state := { disabled := true }, id := some "ok" }

private theorem panel_ok : ElementsOk panel := fourWorld_ok (by decide) (by decide) (by decide) (by decide)

private theorem panel_leaves : PseudoLeaves panel := by
  intro x h
  have : x = 1 := by revert x; decide
  subst this
  rfl

/-- The list as a compound -/
private def compound : List Simple → Compound
  | [] => .nil
  | s :: l => .cons s (compound l)

/-- `.panel > label:nth-of-type(2n+2):not(:is(#no)):disabled` -/
private def sel1 : Sel := .link (.subject (compound [.cls "panel"])) .child (compound [.localName "label",
  .nthOfType 2 2 false, .not (.cons (.subject (compound [.is (.cons (.subject (compound [.id "no"])) .nil)])) .nil),
  .state .disabled])

example : ∃ (w : SWorld (Fin 4)) (s : Sel), ElementsOk w ∧ SelOk false s ∧ matchesSelector w s 3 = some true ∧
    matchesSelector w s 2 = some false :=
  ⟨panel, sel1, panel_ok, by simp [sel1, compound, SelOk, CompoundOk, SimpleOk, SelsOk], by decide, by decide⟩

/-- `.panel:has(> label ~ #ok)` -/
example : ∃ (w : SWorld (Fin 4)) (s : Sel), ElementsOk w ∧ SelOk false s ∧ matchesSelector w s 0 = some true ∧
    matchesSelector w s 2 = some false :=
  ⟨panel, .subject (compound [.cls "panel", .has (.cons .child (.link (.link (.subject (compound [.anchor])) .child
    (compound [.localName "label"])) .later (compound [.id "ok"])) .nil)]), panel_ok,
    by simp [compound, SelOk, CompoundOk, SimpleOk, RelsOk, Anchored], by decide, by decide⟩

/-- `.panel::before` -/
example : ∃ (w : SWorld (Fin 4)) (s : Sel), ElementsOk w ∧ PseudoLeaves w ∧ SelOk false s ∧ PlainSel s ∧ EndsInPseudo s ∧
    matchesSelector w s 1 = some true ∧ matchesSelector w s 2 = some false :=
  ⟨panel, .link (.subject (compound [.cls "panel"])) .pseudo (compound [.pseudoElement .before]), panel_ok, panel_leaves,
    by simp [compound, SelOk, CompoundOk, SimpleOk], by simp [compound, PlainSel, PlainCompound, PlainSimple, NamesPseudo, NestsSels],
    by simp [compound, EndsInPseudo, NamesPseudo], by decide, by decide⟩

/-- Not CSS: with a `::before` the first element is not `:first-child`. -/
theorem C90_first_child_false : ∃ (w : SWorld (Fin 4)) (e : Fin 4), ElementsOk w ∧ PseudoLeaves w ∧ e ∈ w.styled ∧
    matchesSelector w (.subject (.cons (.nth 0 1 false) .nil)) e = some false ∧
    SelMeans w (realOnes w) noParent none (.subject (.cons (.nth 0 1 false) .nil)) e := by
  refine ⟨panel, 2, panel_ok, panel_leaves, all4 2, by decide, ?_⟩
  simp only [SelMeans, CompoundMeans, SimpleMeans, and_true]
  refine ⟨.inl (by decide), 0, ?_, 0, by simp⟩
  have : (if false = true then followingOf panel (realOnes panel) 2 else precedingOf panel (realOnes panel) 2) = [] := by
    decide
  rw [this]
  exact .nil

/-- Not CSS: an element with nothing but a `::before` is not `:empty`. -/
theorem C90_empty_false : ∃ (w : SWorld (Fin 4)) (e : Fin 4), ElementsOk w ∧ PseudoLeaves w ∧ e ∈ w.styled ∧
    matchesSelector w (.subject (.cons .empty .nil)) e = some false ∧
    SelMeans w (realOnes w) noParent none (.subject (.cons .empty .nil)) e := by
  refine ⟨fourWorld (fun x => if x = 0 then [1] else []) (fun x => if x = 1 then some 0 else none) fun x =>
    if x = 1 then { pseudo := some .before } else { isRoot := true }, 0,
    fourWorld_ok (by decide) (by decide) (by decide) (by decide), ?_, all4 0, by decide, ?_⟩
  · intro x h
    have : x = 1 := by revert x; decide
    subst this
    rfl
  · simp only [SelMeans, CompoundMeans, SimpleMeans, and_true]
    exact ⟨.inl (by decide), by decide⟩

/-- Not CSS: `*` is also a selector for `::before` and `::after`. -/
theorem C90_universal_false : ∃ (w : SWorld (Fin 4)) (e : Fin 4), ElementsOk w ∧ PseudoLeaves w ∧ e ∈ w.styled ∧
    matchesSelector w (.subject (.cons .universal .nil)) e = some true ∧
    ¬ SelMeans w (realOnes w) noParent none (.subject (.cons .universal .nil)) e := by
  refine ⟨panel, 1, panel_ok, panel_leaves, all4 1, by decide, ?_⟩
  simp only [SelMeans, CompoundMeans, SimpleMeans, NamesPseudo]
  rintro ⟨h | ⟨p, h⟩ | h, _⟩
  · revert h; decide
  · cases h
  · exact h

/-- A name with a bare `|` in front crashes the application, whatever the element. -/
theorem C90_pipe_crashes (w : SWorld E) (e : E) (name : String) :
    matchesSelector w (.subject (.cons .noNamespace (.cons (.localName name) .nil))) e = none := by
  simp [matchesSelector, matchSel, matchCompound, matchSimple, hasNamespace, bothM]

end Flair.Props
