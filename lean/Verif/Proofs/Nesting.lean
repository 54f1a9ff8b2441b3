import Verif.Spec.Nesting
import Verif.Proofs.Selector
import Verif.Tactics
/-!
# Lemmas about nested selectors and specificity
-/
namespace Flair.Proofs.Nesting
open Flair.Tree Flair.Selector Flair.Nesting Flair.Spec

/-! ## Specificity -/

/-- The counters are not above the specificity -/
def Below (c : Counts) (a : Weight) : Prop :=
  c.ids < a.ids ∨ (c.ids = a.ids ∧ (c.classes < a.classes ∨ (c.classes = a.classes ∧ c.elements ≤ a.types)))

/-- The counters are the specificity, unless it is too large -/
def Good (c : Counts) (a : Weight) : Prop := Below c a ∧ (a.Small → c = ⟨a.ids, a.classes, a.types⟩)

/-- The same for a number -/
def GoodN (n : Nat) (a : Weight) : Prop := Below (unpack n) a ∧ (a.Small → n = a.number) ∧ n < 1073741824

theorem add_ids (a b : Counts) : (a + b).ids = a.ids + b.ids := rfl
theorem add_classes (a b : Counts) : (a + b).classes = a.classes + b.classes := rfl
theorem add_elements (a b : Counts) : (a + b).elements = a.elements + b.elements := rfl

theorem counts_ext {a b : Counts} (h1 : a.ids = b.ids) (h2 : a.classes = b.classes) (h3 : a.elements = b.elements) :
    a = b := by cases a; cases b; simp_all

theorem good_plus {c d : Counts} {a b : Weight} (h : Good c a) (h' : Good d b) : Good (c + d) (a.plus b) := by
  refine ⟨?_, ?_⟩
  · have h1 := h.1; have h2 := h'.1
    unfold Below at h1 h2 ⊢
    simp only [add_ids, add_classes, add_elements, Weight.plus]
    omega
  · intro hs
    unfold Weight.Small Weight.plus at hs
    dsimp only at hs
    have h1 := h.2 ⟨by omega, by omega, by omega⟩
    have h2 := h'.2 ⟨by omega, by omega, by omega⟩
    rw [h1, h2]; rfl

theorem good_unpack {n : Nat} {a : Weight} (h : GoodN n a) : Good (unpack n) a := by
  refine ⟨h.1, fun hs => ?_⟩
  rw [h.2.1 hs]
  unfold Weight.Small at hs
  unfold Weight.number unpack
  refine counts_ext ?_ ?_ ?_ <;> dsimp only <;> omega

theorem good_pack {c : Counts} {a : Weight} (h : Good c a) : GoodN (pack c) a := by
  refine ⟨?_, ?_, ?_⟩
  · have h1 := h.1
    unfold Below at h1 ⊢
    unfold pack unpack
    dsimp only
    have e1 : (min c.ids 1023 * 1048576 + min c.classes 1023 * 1024 + min c.elements 1023) / 1048576 = min c.ids 1023 := by omega
    have e2 : (min c.ids 1023 * 1048576 + min c.classes 1023 * 1024 + min c.elements 1023) / 1024 % 1024 = min c.classes 1023 := by
      omega
    have e3 : (min c.ids 1023 * 1048576 + min c.classes 1023 * 1024 + min c.elements 1023) % 1024 = min c.elements 1023 := by omega
    rw [e1, e2, e3]
    omega
  · intro hs
    rw [h.2 hs]
    unfold Weight.Small at hs
    unfold pack Weight.number
    dsimp only
    omega
  · unfold pack; omega

theorem good_zero : Good ⟨0, 0, 0⟩ .zero := ⟨.inr ⟨rfl, .inr ⟨rfl, Nat.le_refl _⟩⟩, fun _ => rfl⟩

theorem good_same (a b c : Nat) : Good ⟨a, b, c⟩ ⟨a, b, c⟩ := ⟨.inr ⟨rfl, .inr ⟨rfl, Nat.le_refl _⟩⟩, fun _ => rfl⟩

theorem goodN_zero : GoodN 0 .zero := ⟨.inr ⟨rfl, .inr ⟨rfl, Nat.le_refl _⟩⟩, fun _ => rfl, by omega⟩

/-- Numbers are ordered like the counters -/
theorem below_of_le {n m : Nat} {a : Weight} (hn : n ≤ m) (h : Below (unpack m) a) : Below (unpack n) a := by
  unfold Below unpack at *
  dsimp only at *
  omega

theorem le_of_below {n : Nat} {a : Weight} (hn : n < 1073741824) (h : Below (unpack n) a) (hs : a.Small) : n ≤ a.number := by
  unfold Below unpack at h
  unfold Weight.Small at hs
  unfold Weight.number
  dsimp only at h
  omega

theorem below_trans {c : Counts} {a b : Weight} (h : Below c a) (h' : a.Less b) : Below c b := by
  unfold Below Weight.Less at *
  omega

theorem below_trans' {c : Counts} {a b : Weight} (h : Below c b) (h' : ¬ a.Less b) : Below c a := by
  unfold Below Weight.Less at *
  omega

theorem good_max {n m : Nat} {a b : Weight} (h : GoodN n a) (h' : GoodN m b) : GoodN (max n m) (a.most b) := by
  have h3 : max n m < 1073741824 := max_lt h.2.2 h'.2.2
  unfold Weight.most
  split
  · rename_i hl
    have hb := below_trans h.1 hl
    have key : Below (unpack (max n m)) b := by rcases max_choice n m with e | e <;> rw [e]; exacts [hb, h'.1]
    refine ⟨key, fun hs => ?_, h3⟩
    have e := h'.2.1 hs
    have := le_of_below h.2.2 hb hs
    rw [e]; exact max_eq_right this
  · rename_i hl
    have hb := below_trans' h'.1 hl
    have key : Below (unpack (max n m)) a := by rcases max_choice n m with e | e <;> rw [e]; exacts [h.1, hb]
    refine ⟨key, fun hs => ?_, h3⟩
    have e := h.2.1 hs
    have := le_of_below h'.2.2 hb hs
    rw [e]; exact max_eq_left this

mutual
theorem simple_good : ∀ s : Simple, Good (simpleCounts s) (simpleWeight .zero s)
  | .universal | .anyNamespace | .noNamespace | .anchor | .where_ _ | .parent => by
    simp only [simpleCounts, simpleWeight]; exact good_zero
  | .localName _ | .pseudoElement _ | .id _ | .cls _ | .attrExists _ | .attr _ _ _ | .root | .scope | .empty | .state _
  | .nth _ _ _ | .nthOfType _ _ _ => by simp only [simpleCounts, simpleWeight]; exact good_same _ _ _
  | .nthOf _ _ _ l => by
    simp only [simpleCounts, simpleWeight]; exact good_plus (good_same _ _ _) (good_unpack (sels_good l))
  | .not l => by simp only [simpleCounts, simpleWeight]; exact good_unpack (sels_good l)
  | .is l => by simp only [simpleCounts, simpleWeight]; exact good_unpack (sels_good l)
  | .has l => by simp only [simpleCounts, simpleWeight]; exact good_unpack (rels_good l)
theorem compound_good : ∀ c : Compound, Good (compoundCounts c) (compoundWeight .zero c)
  | .nil => by simp only [compoundCounts, compoundWeight]; exact good_zero
  | .cons s c => by simp only [compoundCounts, compoundWeight]; exact good_plus (simple_good s) (compound_good c)
theorem sel_good : ∀ s : Sel, Good (selCounts s) (selWeight .zero s)
  | .subject c => by simp only [selCounts, selWeight]; exact compound_good c
  | .link l _ c => by simp only [selCounts, selWeight]; exact good_plus (sel_good l) (compound_good c)
theorem sels_good : ∀ l : Sels, GoodN (selsSpec l) (selsWeight .zero l)
  | .nil => by simp only [selsSpec, selsWeight]; exact goodN_zero
  | .cons s l => by simp only [selsSpec, selsWeight]; exact good_max (good_pack (sel_good s)) (sels_good l)
theorem rels_good : ∀ l : Rels, GoodN (relsSpec l) (relsWeight .zero l)
  | .nil => by simp only [relsSpec, relsWeight]; exact goodN_zero
  | .cons _ s l => by simp only [relsSpec, relsWeight]; exact good_max (good_pack (sel_good s)) (rels_good l)
end

mutual
/-- Without `&` its specificity does not matter -/
theorem simple_weight (a : Weight) : ∀ s : Simple, simpleParent s = false → simpleWeight a s = simpleWeight .zero s
  | .universal, _ | .anyNamespace, _ | .noNamespace, _ | .anchor, _ | .where_ _, _ | .localName _, _ | .pseudoElement _, _
  | .id _, _ | .cls _, _ | .attrExists _, _ | .attr _ _ _, _ | .root, _ | .scope, _ | .empty, _ | .state _, _
  | .nth _ _ _, _ | .nthOfType _ _ _, _ => by simp only [simpleWeight]
  | .parent, h => by simp [simpleParent] at h
  | .nthOf _ _ _ l, h => by rw [simpleParent] at h; simp only [simpleWeight, sels_weight a l h]
  | .not l, h => by rw [simpleParent] at h; simp only [simpleWeight, sels_weight a l h]
  | .is l, h => by rw [simpleParent] at h; simp only [simpleWeight, sels_weight a l h]
  | .has l, h => by rw [simpleParent] at h; simp only [simpleWeight, rels_weight a l h]
theorem compound_weight (a : Weight) : ∀ c : Compound, compoundParent c = false → compoundWeight a c = compoundWeight .zero c
  | .nil, _ => by simp only [compoundWeight]
  | .cons s c, h => by
    rw [compoundParent, Bool.or_eq_false_iff] at h
    simp only [compoundWeight, simple_weight a s h.1, compound_weight a c h.2]
theorem sel_weight (a : Weight) : ∀ s : Sel, selParent s = false → selWeight a s = selWeight .zero s
  | .subject c, h => by rw [selParent] at h; simp only [selWeight, compound_weight a c h]
  | .link l _ c, h => by
    rw [selParent, Bool.or_eq_false_iff] at h
    simp only [selWeight, sel_weight a l h.1, compound_weight a c h.2]
theorem sels_weight (a : Weight) : ∀ l : Sels, selsParent l = false → selsWeight a l = selsWeight .zero l
  | .nil, _ => by simp only [selsWeight]
  | .cons s l, h => by
    rw [selsParent, Bool.or_eq_false_iff] at h
    simp only [selsWeight, sel_weight a s h.1, sels_weight a l h.2]
theorem rels_weight (a : Weight) : ∀ l : Rels, relsParent l = false → relsWeight a l = relsWeight .zero l
  | .nil, _ => by simp only [relsWeight]
  | .cons _ s l, h => by
    rw [relsParent, Bool.or_eq_false_iff] at h
    simp only [relsWeight, sel_weight a s h.1, rels_weight a l h.2]
end

theorem plus_zero (a : Weight) : a.plus .zero = a := rfl
theorem zero_plus (a : Weight) : Weight.zero.plus a = a := by simp [Weight.plus, Weight.zero]
theorem plus_comm (a b : Weight) : a.plus b = b.plus a := by simp [Weight.plus, Nat.add_comm]
theorem plus_assoc (a b c : Weight) : (a.plus b).plus c = a.plus (b.plus c) := by simp [Weight.plus, Nat.add_assoc]
theorem plus_swap (a b c d : Weight) : (a.plus b).plus (c.plus d) = (a.plus c).plus (b.plus d) := by
  simp only [Weight.plus, Weight.mk.injEq]; omega

/-- What `&` adds -/
theorem simple_adds {p : Nat} {a : Weight} (hp : GoodN p a) (s : Simple) (hf : FlatSimple s) :
    ∃ b, Good (simpleAdds p s) b ∧ simpleWeight a s = (simpleWeight .zero s).plus b := by
  cases s with
  | parent => exact ⟨a, by rw [simpleAdds]; exact good_unpack hp, by simp only [simpleWeight, zero_plus]⟩
  | nthOf x y f l =>
    rw [FlatSimple] at hf
    refine ⟨.zero, ?_, ?_⟩
    · simp only [simpleAdds, hf, Bool.false_eq_true, if_false]; exact good_zero
    · simp only [simpleWeight, sels_weight a l hf, plus_zero]
  | not l =>
    rw [FlatSimple] at hf
    refine ⟨.zero, ?_, ?_⟩
    · simp only [simpleAdds, hf, Bool.false_eq_true, if_false]; exact good_zero
    · simp only [simpleWeight, sels_weight a l hf, plus_zero]
  | is l =>
    rw [FlatSimple] at hf
    refine ⟨.zero, ?_, ?_⟩
    · simp only [simpleAdds, hf, Bool.false_eq_true, if_false]; exact good_zero
    · simp only [simpleWeight, sels_weight a l hf, plus_zero]
  | has l =>
    rw [FlatSimple] at hf
    refine ⟨.zero, ?_, ?_⟩
    · simp only [simpleAdds, hf, Bool.false_eq_true, if_false]; exact good_zero
    · simp only [simpleWeight, rels_weight a l hf, plus_zero]
  | _ => exact ⟨.zero, by simp only [simpleAdds]; exact good_zero, by simp only [simpleWeight, plus_zero]⟩

theorem compound_adds {p : Nat} {a : Weight} (hp : GoodN p a) : ∀ (c : Compound), FlatCompound c →
    ∃ b, Good (compoundAdds p c) b ∧ compoundWeight a c = (compoundWeight .zero c).plus b
  | .nil, _ => ⟨.zero, by rw [compoundAdds]; exact good_zero, by simp only [compoundWeight, plus_zero]⟩
  | .cons s c, hf => by
    rw [FlatCompound] at hf
    obtain ⟨b1, h1, e1⟩ := simple_adds hp s hf.1
    obtain ⟨b2, h2, e2⟩ := compound_adds hp c hf.2
    refine ⟨b1.plus b2, ?_, ?_⟩
    · rw [compoundAdds]; exact good_plus h1 h2
    · simp only [compoundWeight, e1, e2, plus_swap]

theorem sel_adds {p : Nat} {a : Weight} (hp : GoodN p a) : ∀ (s : Sel), FlatSel s →
    ∃ b, Good (selAdds p s) b ∧ selWeight a s = (selWeight .zero s).plus b
  | .subject c, hf => by
    rw [FlatSel] at hf
    obtain ⟨b, h, e⟩ := compound_adds hp c hf
    exact ⟨b, by rw [selAdds]; exact h, by simp only [selWeight, e]⟩
  | .link l k c, hf => by
    rw [FlatSel] at hf
    obtain ⟨b1, h1, e1⟩ := sel_adds hp l hf.1
    obtain ⟨b2, h2, e2⟩ := compound_adds hp c hf.2
    refine ⟨b1.plus b2, ?_, ?_⟩
    · rw [selAdds]; exact good_plus h1 h2
    · simp only [selWeight, e1, e2, plus_swap]

theorem spec_good (s : Sel) : GoodN (selSpec s) (selWeight .zero s) := good_pack (sel_good s)

/-- After the replacement -/
theorem replaced_good {s : Compiled} {ps : List Compiled} {a : Weight} (hs : s = compiled s.sel) (hf : FlatSel s.sel)
    (hp : GoodN (greatest ps) a) : GoodN (replaceAmp s ps).spec (selWeight a s.sel) := by
  have e : s.spec = selSpec s.sel := by rw [hs]; rfl
  unfold replaceAmp
  split
  · obtain ⟨b, hb, eb⟩ := sel_adds hp s.sel hf
    rw [eb]
    refine good_pack (good_plus ?_ hb)
    rw [e]
    exact good_unpack (spec_good _)
  · rename_i h
    rw [sel_weight a s.sel (by simpa using h), e]
    exact spec_good _

/-! ## What `&` stands for -/
variable {E : Type} [DecidableEq E] {w : SWorld E} {counts : E → Bool} {P Q : E → Prop}

mutual
/-- Without an anchor outside of `:has()` it does not matter -/
theorem simple_free (a b : Option E) : ∀ (s : Simple) (e : E), FreeSimple s →
    (SimpleMeans w counts P a s e ↔ SimpleMeans w counts P b s e)
  | .anchor, _, h => by simp [FreeSimple] at h
  | .nthOf _ _ _ l, e, h => by
    rw [FreeSimple] at h
    simp only [SimpleMeans, sels_free a b l _ h]
  | .not l, e, h => by rw [FreeSimple] at h; simp only [SimpleMeans, sels_free a b l e h]
  | .is l, e, h => by rw [FreeSimple] at h; simp only [SimpleMeans, sels_free a b l e h]
  | .where_ l, e, h => by rw [FreeSimple] at h; simp only [SimpleMeans, sels_free a b l e h]
  | .universal, _, _ | .anyNamespace, _, _ | .noNamespace, _, _ | .localName _, _, _ | .id _, _, _ | .cls _, _, _
  | .attrExists _, _, _ | .attr _ _ _, _, _ | .root, _, _ | .scope, _, _ | .empty, _, _ | .state _, _, _
  | .nth _ _ _, _, _ | .nthOfType _ _ _, _, _ | .has _, _, _ | .parent, _, _ | .pseudoElement _, _, _ => by
    simp only [SimpleMeans]
theorem compound_free (a b : Option E) : ∀ (c : Compound) (e : E), FreeCompound c →
    (CompoundMeans w counts P a c e ↔ CompoundMeans w counts P b c e)
  | .nil, _, _ => by simp only [CompoundMeans]
  | .cons s c, e, h => by
    rw [FreeCompound] at h
    simp only [CompoundMeans, simple_free a b s e h.1, compound_free a b c e h.2]
theorem sel_free (a b : Option E) : ∀ (s : Sel) (e : E), FreeSel s →
    (SelMeans w counts P a s e ↔ SelMeans w counts P b s e)
  | .subject c, e, h => by
    rw [FreeSel] at h
    simp only [SelMeans, compound_free a b c e h]
  | .link l k c, e, h => by
    rw [FreeSel] at h
    simp only [SelMeans, compound_free a b c e h.2, sel_free a b l _ h.1]
theorem sels_free (a b : Option E) : ∀ (l : Sels) (e : E), FreeSels l →
    (AnyMeans w counts P a l e ↔ AnyMeans w counts P b l e)
  | .nil, _, _ => by simp only [AnyMeans]
  | .cons s l, e, h => by
    rw [FreeSels] at h
    simp only [AnyMeans, sel_free a b s e h.1, sels_free a b l e h.2]
end

theorem names_fill (ps : Sels) : ∀ c : Compound, NamesPseudo (fillCompound ps c) ↔ NamesPseudo c
  | .nil => by simp only [fillCompound]
  | .cons s c => by
    simp only [fillCompound, NamesPseudo, names_fill ps c]
    refine or_congr ?_ Iff.rfl
    cases s <;> simp [fillSimple]

mutual
/-- Replacing `&` gives it the meaning of the list -/
theorem simple_fill {ps : Sels} (hp : ∀ a e, AnyMeans w counts Q a ps e ↔ P e) (a : Option E) : ∀ (s : Simple) (e : E),
    (SimpleMeans w counts Q a (fillSimple ps s) e ↔ SimpleMeans w counts P a s e)
  | .parent, e => by simp only [fillSimple, SimpleMeans, hp]
  | .nthOf _ _ _ l, e => by simp only [fillSimple, SimpleMeans, sels_fill hp a l]
  | .not l, e => by simp only [fillSimple, SimpleMeans, sels_fill hp a l]
  | .is l, e => by simp only [fillSimple, SimpleMeans, sels_fill hp a l]
  | .where_ l, e => by simp only [fillSimple, SimpleMeans, sels_fill hp a l]
  | .has l, e => by simp only [fillSimple, SimpleMeans, rels_fill hp l]
  | .universal, _ | .anyNamespace, _ | .noNamespace, _ | .localName _, _ | .id _, _ | .cls _, _
  | .attrExists _, _ | .attr _ _ _, _ | .root, _ | .scope, _ | .empty, _ | .state _, _
  | .nth _ _ _, _ | .nthOfType _ _ _, _ | .anchor, _ | .pseudoElement _, _ => by
    simp only [fillSimple, SimpleMeans]
theorem compound_fill {ps : Sels} (hp : ∀ a e, AnyMeans w counts Q a ps e ↔ P e) (a : Option E) : ∀ (c : Compound) (e : E),
    (CompoundMeans w counts Q a (fillCompound ps c) e ↔ CompoundMeans w counts P a c e)
  | .nil, _ => by simp only [fillCompound, CompoundMeans]
  | .cons s c, e => by
    simp only [fillCompound, CompoundMeans, simple_fill hp a s e, compound_fill hp a c e]
theorem sel_fill {ps : Sels} (hp : ∀ a e, AnyMeans w counts Q a ps e ↔ P e) (a : Option E) : ∀ (s : Sel) (e : E),
    (SelMeans w counts Q a (fill ps s) e ↔ SelMeans w counts P a s e)
  | .subject c, e => by simp only [fill, SelMeans, compound_fill hp a c e, names_fill]
  | .link l k c, e => by simp only [fill, SelMeans, compound_fill hp a c e, names_fill, sel_fill hp a l]
theorem sels_fill {ps : Sels} (hp : ∀ a e, AnyMeans w counts Q a ps e ↔ P e) (a : Option E) : ∀ (l : Sels) (e : E),
    (AnyMeans w counts Q a (fillSels ps l) e ↔ AnyMeans w counts P a l e)
  | .nil, _ => by simp only [fillSels, AnyMeans]
  | .cons s l, e => by simp only [fillSels, AnyMeans, sel_fill hp a s e, sels_fill hp a l e]
theorem rels_fill {ps : Sels} (hp : ∀ a e, AnyMeans w counts Q a ps e ↔ P e) : ∀ (l : Rels) (e : E),
    (HasMeans w counts Q (fillRels ps l) e ↔ HasMeans w counts P l e)
  | .nil, _ => by simp only [fillRels, HasMeans]
  | .cons _ s l, e => by simp only [fillRels, HasMeans, sel_fill hp (some e) s, rels_fill hp l e]
end

theorem anchored_fill (ps : Sels) {k : Link} : ∀ s : Sel, Anchored k s → Anchored k (fill ps s)
  | .subject _, h => by simp [Anchored] at h
  | .link l k' c, h => by
    rw [Anchored] at h
    rw [fill, Anchored]
    rcases h with ⟨rfl, h2, h3⟩ | h
    · exact .inl ⟨by simp only [fill, fillCompound, fillSimple], h2, h3⟩
    · exact .inr (anchored_fill ps l h)

mutual
/-- After the replacement there is no `&` left -/
theorem simple_ok_fill {ps : Sels} (hp : SelsOk false ps) : ∀ s : Simple, SimpleOk true s → SimpleOk false (fillSimple ps s)
  | .parent, _ => by simp only [fillSimple, SimpleOk]; exact hp
  | .noNamespace, h => by simp [SimpleOk] at h
  | .nthOf _ _ _ l, h => by rw [SimpleOk] at h; simp only [fillSimple, SimpleOk]; exact sels_ok_fill hp l h
  | .not l, h => by rw [SimpleOk] at h; simp only [fillSimple, SimpleOk]; exact sels_ok_fill hp l h
  | .is l, h => by rw [SimpleOk] at h; simp only [fillSimple, SimpleOk]; exact sels_ok_fill hp l h
  | .where_ l, h => by rw [SimpleOk] at h; simp only [fillSimple, SimpleOk]; exact sels_ok_fill hp l h
  | .has l, h => by rw [SimpleOk] at h; simp only [fillSimple, SimpleOk]; exact rels_ok_fill hp l h
  | .universal, _ | .anyNamespace, _ | .localName _, _ | .id _, _ | .cls _, _
  | .attrExists _, _ | .attr _ _ _, _ | .root, _ | .scope, _ | .empty, _ | .state _, _
  | .nth _ _ _, _ | .nthOfType _ _ _, _ | .anchor, _ | .pseudoElement _, _ => by simp only [fillSimple, SimpleOk]
theorem compound_ok_fill {ps : Sels} (hp : SelsOk false ps) : ∀ c : Compound, CompoundOk true c →
    CompoundOk false (fillCompound ps c)
  | .nil, _ => by simp only [fillCompound, CompoundOk]
  | .cons s c, h => by
    rw [CompoundOk] at h
    simp only [fillCompound, CompoundOk]
    exact ⟨simple_ok_fill hp s h.1, compound_ok_fill hp c h.2⟩
theorem sel_ok_fill {ps : Sels} (hp : SelsOk false ps) : ∀ s : Sel, SelOk true s → SelOk false (fill ps s)
  | .subject c, h => by rw [SelOk] at h; simp only [fill, SelOk]; exact compound_ok_fill hp c h
  | .link l k c, h => by
    rw [SelOk] at h; simp only [fill, SelOk]; exact ⟨sel_ok_fill hp l h.1, compound_ok_fill hp c h.2⟩
theorem sels_ok_fill {ps : Sels} (hp : SelsOk false ps) : ∀ l : Sels, SelsOk true l → SelsOk false (fillSels ps l)
  | .nil, _ => by simp only [fillSels, SelsOk]
  | .cons s l, h => by
    rw [SelsOk] at h; simp only [fillSels, SelsOk]; exact ⟨sel_ok_fill hp s h.1, sels_ok_fill hp l h.2⟩
theorem rels_ok_fill {ps : Sels} (hp : SelsOk false ps) : ∀ l : Rels, RelsOk true l → RelsOk false (fillRels ps l)
  | .nil, _ => by simp only [fillRels, RelsOk]
  | .cons k s l, h => by
    rw [RelsOk] at h; simp only [fillRels, RelsOk]
    exact ⟨anchored_fill ps s h.1, sel_ok_fill hp s h.2.1, rels_ok_fill hp l h.2.2⟩
end

mutual
/-- Nothing to replace -/
theorem simple_fill_id (ps : Sels) : ∀ s : Simple, simpleParent s = false → fillSimple ps s = s
  | .parent, h => by simp [simpleParent] at h
  | .nthOf _ _ _ l, h => by rw [simpleParent] at h; simp only [fillSimple, sels_fill_id ps l h]
  | .not l, h => by rw [simpleParent] at h; simp only [fillSimple, sels_fill_id ps l h]
  | .is l, h => by rw [simpleParent] at h; simp only [fillSimple, sels_fill_id ps l h]
  | .where_ l, h => by rw [simpleParent] at h; simp only [fillSimple, sels_fill_id ps l h]
  | .has l, h => by rw [simpleParent] at h; simp only [fillSimple, rels_fill_id ps l h]
  | .universal, _ | .anyNamespace, _ | .noNamespace, _ | .localName _, _ | .id _, _ | .cls _, _
  | .attrExists _, _ | .attr _ _ _, _ | .root, _ | .scope, _ | .empty, _ | .state _, _
  | .nth _ _ _, _ | .nthOfType _ _ _, _ | .anchor, _ | .pseudoElement _, _ => by simp only [fillSimple]
theorem compound_fill_id (ps : Sels) : ∀ c : Compound, compoundParent c = false → fillCompound ps c = c
  | .nil, _ => by simp only [fillCompound]
  | .cons s c, h => by
    rw [compoundParent, Bool.or_eq_false_iff] at h
    simp only [fillCompound, simple_fill_id ps s h.1, compound_fill_id ps c h.2]
theorem sel_fill_id (ps : Sels) : ∀ s : Sel, selParent s = false → fill ps s = s
  | .subject c, h => by rw [selParent] at h; simp only [fill, compound_fill_id ps c h]
  | .link l _ c, h => by
    rw [selParent, Bool.or_eq_false_iff] at h
    simp only [fill, sel_fill_id ps l h.1, compound_fill_id ps c h.2]
theorem sels_fill_id (ps : Sels) : ∀ l : Sels, selsParent l = false → fillSels ps l = l
  | .nil, _ => by simp only [fillSels]
  | .cons s l, h => by
    rw [selsParent, Bool.or_eq_false_iff] at h
    simp only [fillSels, sel_fill_id ps s h.1, sels_fill_id ps l h.2]
theorem rels_fill_id (ps : Sels) : ∀ l : Rels, relsParent l = false → fillRels ps l = l
  | .nil, _ => by simp only [fillRels]
  | .cons _ s l, h => by
    rw [relsParent, Bool.or_eq_false_iff] at h
    simp only [fillRels, sel_fill_id ps s h.1, rels_fill_id ps l h.2]
end

theorem replaced_sel (s : Compiled) (ps : List Compiled) : (replaceAmp s ps).sel = fill (listOf ps) s.sel := by
  unfold replaceAmp
  split
  · rfl
  · rename_i h; rw [sel_fill_id _ _ (by simpa using h)]

theorem any_listOf (a : Option E) (e : E) : ∀ cs : List Compiled,
    AnyMeans w counts P a (listOf cs) e ↔ ∃ c ∈ cs, SelMeans w counts P a c.sel e
  | [] => by simp [listOf, AnyMeans]
  | c :: cs => by simp [listOf, AnyMeans, any_listOf a e cs]

theorem ok_listOf {b : Bool} : ∀ cs : List Compiled, (∀ c ∈ cs, SelOk b c.sel) → SelsOk b (listOf cs)
  | [], _ => by simp [listOf, SelsOk]
  | c :: cs, h => by
    simp only [listOf, SelsOk]
    exact ⟨h c (by simp), ok_listOf cs fun x hx => h x (by simp [hx])⟩

end Flair.Proofs.Nesting
