import Verif.Proofs.Loader
/-!
# What a loaded source gives
-/
namespace Flair.Loader
set_option linter.unusedSectionVars false
open Flair.Spec Flair.Sheet Flair.Layers Flair.Vars Flair.Values Flair.Media
variable {S M C N T V X Y : Type} [DecidableEq N] [DecidableEq V]
variable {names : C → Option Nat} {typeOk : Nat → V → Bool} {spec : S → Nat}
  {ph : V → PropertyValue V}

/-- the ruleset can be built -/
def RulesetOk (names : C → Option Nat) (typeOk : Nat → V → Bool) (ph : V → PropertyValue V)
    (br : Ruleset (BProp C N T V) N T X Y) : Prop :=
  ∃ r', (place ph br).resolve names = some r' ∧
    ∀ p ∈ r'.properties, ∀ id v, p = .specific id (.value v) → typeOk id v = true

theorem build_ok_iff' {b : Builder S M C N T V X Y} :
    (∃ sh, b.build names typeOk spec ph = some (.ok sh)) ↔
      NoOrphan b ∧ (∀ s ∈ b.selectors, (priority b.layers s.1.layer).isSome) ∧
      ∀ br ∈ b.rulesets, RulesetOk names typeOk ph br := by
  constructor
  · rintro ⟨sh, h⟩
    rw [build_ok_iff] at h
    obtain ⟨h1, h2, h3, h4, h5⟩ := h
    refine ⟨h1, h2, ?_⟩
    rw [validateProps_none_iff] at h5
    intro br hbr
    clear h1 h2 h3
    generalize b.rulesets = l at h4 hbr
    generalize sh.rulesets = l' at h4 h5
    induction h4 with
    | nil => cases hbr
    | @cons a a' l l' ha _ ih =>
      rcases List.mem_cons.mp hbr with rfl | hbr
      · exact ⟨a', ha, h5 a' (by simp)⟩
      · exact ih hbr (fun r hr => h5 r (by simp [hr]))
  · rintro ⟨h1, h2, h3⟩
    have : ∃ rs, List.Forall₂ (fun r r' => (place ph r).resolve names = some r') b.rulesets rs ∧
        ∀ r' ∈ rs, ∀ p ∈ r'.properties, ∀ id v, p = .specific id (.value v) → typeOk id v = true := by
      clear h1 h2
      generalize b.rulesets = l at h3
      induction l with
      | nil => exact ⟨[], .nil, by simp⟩
      | cons a l ih =>
        obtain ⟨rs, e1, e2⟩ := ih (fun r hr => h3 r (by simp [hr]))
        obtain ⟨r', e3, e4⟩ := h3 a (by simp)
        refine ⟨r' :: rs, .cons e3 e1, ?_⟩
        intro x hx
        rcases List.mem_cons.mp hx with rfl | hx
        · exact e4
        · exact e2 x hx
    obtain ⟨rs, e1, e2⟩ := this
    refine ⟨⟨rs, b.selectors.mergeSort (selectorLe b.layers spec)⟩, ?_⟩
    rw [build_ok_iff]
    exact ⟨h1, h2, rfl, e1, (validateProps_none_iff _ _).mpr e2⟩

theorem build_ne_none {b : Builder S M C N T V X Y}
    (h : ∀ s ∈ b.selectors, (priority b.layers s.1.layer).isSome) :
    b.build names typeOk spec ph ≠ none := by
  unfold Builder.build
  split
  · simp
  · rw [if_neg]
    · simp only
      split
      · simp
      · split <;> simp
    · simp only [List.any_eq_true, not_exists, not_and]
      intro s hs
      have := h s hs
      cases hp : priority b.layers s.1.layer with
      | none => rw [hp] at this; cases this
      | some _ => simp

theorem rulesetOk_empty {br : Ruleset (BProp C N T V) N T X Y} (h : br.isEmpty = true) :
    RulesetOk names typeOk ph br := by
  have hp : br.properties = [] := by
    unfold Ruleset.isEmpty at h
    simp only [Bool.and_eq_true, List.isEmpty_iff] at h
    exact h.1.1.2
  refine ⟨⟨br.vars, [], br.transitions, br.animations⟩, ?_, by simp⟩
  unfold Ruleset.resolve place
  simp [hp]

theorem propsOk_iff (names : C → Option Nat) (typeOk : Nat → V → Bool) (ph : V → PropertyValue V)
    (ds : List (SrcDecl C N T V X Y)) :
    (∃ ps, ((propsOf ds).map (BProp.placeholder ph)).mapM (BProp.resolve names) = some ps ∧
      ∀ p ∈ ps, ∀ id v, p = .specific id (.value v) → typeOk id v = true) ↔
    ∀ d ∈ ds, DeclOk names typeOk ph d := by
  induction ds with
  | nil => simp [propsOf]
  | cons d ds ih =>
    rw [List.forall_mem_cons, ← ih]
    cases d with
    | var n t => simp [propsOf, DeclOk]
    | transition x => simp [propsOf, DeclOk]
    | animation y => simp [propsOf, DeclOk]
    | prop p =>
      have hp : propsOf (.prop p :: ds) = p :: propsOf ds := by simp [propsOf]
      rw [hp, List.map_cons, List.mapM_cons]
      cases p with
      | dynamic parser tokens =>
        simp only [BProp.placeholder, BProp.resolve, DeclOk, true_and]
        constructor
        · rintro ⟨ps, h1, h2⟩
          cases h3 : ((propsOf ds).map (BProp.placeholder ph)).mapM (BProp.resolve names) with
          | none => rw [h3] at h1; cases h1
          | some qs =>
            rw [h3] at h1
            cases h1
            exact ⟨qs, rfl, fun p hp => h2 p (by simp [hp])⟩
        · rintro ⟨qs, h3, h2⟩
          rw [h3]
          refine ⟨_, rfl, ?_⟩
          intro p hp
          rcases List.mem_cons.mp hp with rfl | hp
          · intro id v h; cases h
          · exact h2 p hp
      | specific r v =>
        have hres : BProp.resolve names (BProp.placeholder ph (.specific r v) : BProp C N T V) =
            (resolveRef names r).map fun id => RProp.specific id
              (match v with | .value x => ph x | w => w) := by
          cases v <;> rfl
        rw [hres]
        simp only [DeclOk, refersTo_eq]
        cases hr : resolveRef names r with
        | none => simp
        | some id =>
          simp only [Option.map_some, Option.some.injEq, exists_eq_left']
          constructor
          · rintro ⟨ps, h1, h2⟩
            cases h3 : ((propsOf ds).map (BProp.placeholder ph)).mapM (BProp.resolve names) with
            | none => rw [h3] at h1; cases h1
            | some qs =>
              rw [h3] at h1
              cases h1
              refine ⟨?_, qs, rfl, fun p hp => h2 p (by simp [hp])⟩
              intro x w hv hw
              subst hv
              exact h2 _ (List.mem_cons_self) id w (by simp only [hw])
          · rintro ⟨h4, qs, h3, h2⟩
            rw [h3]
            refine ⟨_, rfl, ?_⟩
            intro p hp
            rcases List.mem_cons.mp hp with rfl | hp
            · intro id' w h
              injection h with h5 h6
              subst h5
              cases v with
              | value x => exact h4 x w rfl h6
              | _ => cases h6
            · exact h2 p hp

theorem rulesetOk_body (names : C → Option Nat) (typeOk : Nat → V → Bool) (ph : V → PropertyValue V)
    (r : SrcRule S M C N T V X Y) :
    RulesetOk names typeOk ph (body r) ↔ ∀ d ∈ r.decls, DeclOk names typeOk ph d := by
  rw [← propsOk_iff]
  unfold RulesetOk Ruleset.resolve place body
  rw [foldl_addDecl_props]
  simp only [Ruleset.empty, List.nil_append, Option.map_eq_some_iff]
  constructor
  · rintro ⟨r', ⟨ps, h1, rfl⟩, h2⟩; exact ⟨ps, h1, h2⟩
  · rintro ⟨ps, h1, h2⟩; exact ⟨_, ⟨ps, h1, rfl⟩, h2⟩

theorem mem_explodeR {rs : List (SrcRule S M C N T V X Y)} {P : SrcDecl C N T V X Y → Prop} :
    (∀ r ∈ rs, ∀ d ∈ r.decls, P d) ↔ ∀ r ∈ explodeR rs, ∀ d ∈ r.decls, P d := by
  unfold explodeR
  simp only [List.mem_flatMap, List.mem_map]
  constructor
  · rintro h r ⟨r0, hr0, d0, hd0, rfl⟩ d hd
    simp only [List.mem_singleton] at hd
    subst hd
    exact h r0 hr0 d hd0
  · intro h r hr d hd
    exact h ⟨r.selectors, [d]⟩ ⟨r, hr, d, hd, rfl⟩ d (by simp)

/-- views of the single declarations come from views of the rules -/
theorem group_views {K W : Type} {spec : S → Nat} {isMatch : CssSelector S M → Bool}
    {gives : SrcDecl C N T V X Y → List (K × W) → Prop} (rs : List (SrcRule S M C N T V X Y))
    (hl : ∀ r ∈ rs, ∀ s ∈ r.selectors, ∃ p : Path, (p = [] ∨ p.WF) ∧ s.layer = p.dotted) :
    ∀ (ms' : List (MRule K W)), List.Forall₂ (SeenAs spec isMatch gives) (explodeR rs) ms' →
    ∃ ms, List.Forall₂ (SeenAs spec isMatch gives) rs ms ∧ List.Forall₂ SameView (explode ms) ms' := by
  induction rs with
  | nil => intro ms' h; cases h; exact ⟨[], .nil, .nil⟩
  | cons r rs ih =>
    intro ms' h
    have : explodeR (r :: rs) = r.decls.map (fun d => ⟨r.selectors, [d]⟩) ++ explodeR rs := by
      simp [explodeR]
    rw [this] at h
    obtain ⟨l1, l2, rfl, h1, h2⟩ := forall2_append_left h
    obtain ⟨ms, e1, e2⟩ := ih (fun r hr => hl r (by simp [hr])) l2 h2
    -- the assignments of the rule
    have hd : ∀ (ds : List (SrcDecl C N T V X Y)) (l : List (MRule K W)),
        List.Forall₂ (SeenAs spec isMatch gives) (ds.map fun d => ⟨r.selectors, [d]⟩) l →
        ∃ dl, List.Forall₂ gives ds dl ∧ List.Forall₂ (fun d (m : MRule K W) => m.decls = [d] ∧
          ∀ p s, (p, s) ∈ m.matching ↔ (p = [] ∨ p.WF) ∧
            ∃ sel ∈ r.selectors, isMatch sel = true ∧ sel.layer = p.dotted ∧ spec sel.selector = s)
          dl l := by
      intro ds
      induction ds with
      | nil => intro l h; cases h; exact ⟨[], .nil, .nil⟩
      | cons d ds ihd =>
        intro l h
        simp only [List.map_cons] at h
        cases h with
        | @cons _ m _ l' hm hrest =>
          obtain ⟨dl, g1, g2⟩ := ihd l' hrest
          obtain ⟨hm1, hm2⟩ := hm
          cases hmd : m.decls with
          | nil => rw [hmd] at hm2; cases hm2
          | cons x xs =>
            rw [hmd] at hm2
            cases hm2 with
            | cons hx hnil =>
              cases hnil
              exact ⟨x :: dl, .cons hx g1, .cons ⟨hmd, hm1⟩ g2⟩
    obtain ⟨dl, g1, g2⟩ := hd r.decls l1 h1
    obtain ⟨m0, hm0⟩ := exists_seenAs (K := K) (W := W) (spec := spec) (isMatch := isMatch)
      (gives := fun _ _ => True) (r := r) (hl r (by simp)) (fun _ _ => ⟨[], trivial⟩)
    refine ⟨⟨m0.matching, dl⟩ :: ms, .cons ⟨hm0.1, g1⟩ e1, ?_⟩
    have : explode (⟨m0.matching, dl⟩ :: ms) = dl.map (fun d => ⟨m0.matching, [d]⟩) ++ explode ms := by
      simp [explode]
    rw [this]
    refine List.rel_append ?_ e2
    clear h1 hd g1 this h
    induction g2 with
    | nil => exact .nil
    | @cons d m dl l hm _ ih =>
      refine .cons ⟨?_, hm.1.symm⟩ ih
      rintro ⟨p, s⟩
      rw [hm0.1 p s, hm.2 p s]

/-- Loading a proper source: the builder before and after the removal of empty rulesets. -/
theorem load_facts (names : C → Option Nat) (ph : V → PropertyValue V) (rp : S → List S → S) (amp : S)
    {src : List (Src S M C N T V X Y)} (hp : Proper src) {ds : List Path} (hds : DocHistory src ds) :
    ∃ rules b0 b, Realises names ph b0 rules ds ∧ explodeR rules = docDecls rp amp [] [] src ∧
      (∀ r ∈ rules, r.selectors ≠ []) ∧ b0.rulesets = rules.map body ∧
      b0.removeAllEmpty = some b ∧
      ∀ mode, loadStylesheet rp amp mode src =
        if 0 < errors (parseItems amp ⟨[], []⟩ src) ∧ mode = .returnError then some none else some (some b) := by
  set flat := flatItems rp (parseItems amp ⟨[], []⟩ src) with hflat
  have hnew : Realises names ph (Builder.new : Builder S M C N T V X Y) [] [] :=
    ⟨by simp, by simp [Builder.new, run], by simp [Builder.new], by simp [Builder.new],
      by simp [Builder.new], .nil, .nil⟩
  have hl := layers_append (ds := []) (by simp) hds
  have he := addItems_eq flat (Builder.new : Builder S M C N T V X Y)
  have hfold : (layerNames flat).foldlM defineLayer (Builder.new : Builder S M C N T V X Y).layers =
      (docLayers [] src).foldlM defineLayer (Builder.new : Builder S M C N T V X Y).layers :=
    doc_names rp amp src [] [] _ hp
  have h0 : (docLayers [] src).foldlM defineLayer (Builder.new : Builder S M C N T V X Y).layers =
      some ((run ds).map Path.dotted) := by
    have := hl.1
    simpa [Builder.new, run] using this
  rw [hfold, h0] at he
  simp only [Option.map_some] at he
  have hb := he
  obtain ⟨b0, hb0⟩ : ∃ b0, (Builder.new : Builder S M C N T V X Y).addItems flat = some b0 := ⟨_, he⟩
  have hre : Realises names ph b0 ([] ++ rulesOf flat) ([] ++ ds) := by
    refine Realises.append hnew (sels := numbered 0 (rulesOf flat)) (brs := (rulesOf flat).map body)
      (ns := docLayers [] src) (ns' := layerNames flat) hfold hds ?_ ?_ ?_ ?_ ?_ ?_
    · rw [hfold, h0]
      rw [hb0] at he
      rw [he]
      simp [Builder.new]
    · exact pairwise_numbered _ _
    · intro sel i
      simp [mem_numbered, Builder.new]
    · rintro ⟨sel, i⟩ hs
      rw [mem_numbered] at hs
      obtain ⟨_, r, hr, hsel⟩ := hs
      refine doc_names_mem rp amp src [] [] hp _ ?_
      have hmem : r ∈ rulesOf flat := List.mem_of_getElem? hr
      have : ∀ (is : List (Item S M C N T V X Y)), r ∈ rulesOf is → sel.layer ∈ layerNames is := by
        intro is
        induction is with
        | nil => intro h; cases h
        | cons i is ih =>
          intro h
          cases i with
          | layers ls => simp only [layerNames, List.mem_append]; exact Or.inr (ih h)
          | rule r' =>
            simp only [rulesOf, List.mem_cons] at h
            simp only [layerNames, List.mem_append]
            rcases h with rfl | h
            · exact Or.inl (List.mem_map_of_mem hsel)
            · exact Or.inr (ih h)
      exact this flat hmem
    · have : ∀ rs : List (SrcRule S M C N T V X Y),
          List.Forall₂ (fun br r => PropMeans names ph br r.decls ∧ VarMeans br r.decls)
            (rs.map body) rs := by
        intro rs
        induction rs with
        | nil => exact .nil
        | cons r rs ih => exact .cons (body_means names ph r) ih
      exact this _
    · rw [List.forall₂_map_left_iff]
      exact List.forall₂_same.mpr (fun r _ => body_rest r)
  simp only [List.nil_append] at hre
  obtain ⟨b, hb1, _⟩ := removeEmptyFrom_facts b0 0 hre.inRange (by omega)
  refine ⟨rulesOf flat, b0, b, hre, explodeR_doc rp amp src [] [] hp, doc_sels_ne rp amp src _ hp,
    ?_, hb1, ?_⟩
  · rw [hb0] at he
    cases he
    simp [Builder.new]
  · intro mode
    unfold loadStylesheet
    rw [processAll_eq rp _ (noEmbed_of_proper amp src _ hp), hb0]
    have hb1' : b0.removeAllEmpty = some b := hb1
    simp only [Option.map_some, Option.bind_some, Nat.zero_add, gt_iff_lt, hb1']

end Flair.Loader
