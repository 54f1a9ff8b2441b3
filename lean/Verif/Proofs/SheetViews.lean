import Verif.Proofs.SheetOps
/-! Existence of element views, failed declarations, equality of build outcomes. -/
namespace Flair.Sheet
open Flair.Layers Flair.Vars Flair.Values Flair.Spec
set_option linter.unusedSectionVars false
variable {S M C N T V X Y : Type} [DecidableEq N]

theorem exists_gives {names : C → Option Nat} (ph : V → PropertyValue V)
    (env : N → Option (VarTokens N T)) {d : SrcDecl C N T V X Y} (h : RefsOk names d) :
    ∃ l, Gives names ph env d l := by
  cases d with
  | var n t => exact ⟨[], .var n t⟩
  | transition x => exact ⟨[], .transition x⟩
  | animation y => exact ⟨[], .animation y⟩
  | prop p =>
    cases p with
    | specific r v =>
      simp only [RefsOk] at h
      obtain ⟨id, hid⟩ := Option.ne_none_iff_exists'.mp h
      cases v with
      | value v => exact ⟨_, .value r v id hid⟩
      | none => exact ⟨_, .keyword r _ id hid (by simp)⟩
      | inherit => exact ⟨_, .keyword r _ id hid (by simp)⟩
      | initial => exact ⟨_, .keyword r _ id hid (by simp)⟩
      | unset => exact ⟨_, .keyword r _ id hid (by simp)⟩
    | dynamic parser tokens =>
      by_cases hs : ∃ toks, Substituted env tokens toks
      · obtain ⟨toks, hs⟩ := hs
        cases hp : parser toks with
        | none => exact ⟨[], .unparsable parser tokens toks hs hp⟩
        | some vals =>
          have := h toks vals hp
          have : ∃ l : List (Nat × PropertyValue V), List.Forall₂
              (fun rv iv => refersTo names rv.1 = some iv.1 ∧ rv.2 = iv.2) vals l := by
            clear hp
            induction vals with
            | nil => exact ⟨[], .nil⟩
            | cons rv vals ih =>
              obtain ⟨l, hl⟩ := ih (fun x hx => this x (by simp [hx]))
              obtain ⟨id, hid⟩ := Option.ne_none_iff_exists'.mp (this rv (by simp))
              exact ⟨(id, rv.2) :: l, .cons ⟨hid, rfl⟩ hl⟩
          obtain ⟨l, hl⟩ := this
          exact ⟨l, .parsed parser tokens toks vals l hs hp hl⟩
      · exact ⟨[], .unresolved parser tokens (by simpa using hs)⟩

theorem exists_forall2 {α β : Type} {R : α → β → Prop} {l : List α} (h : ∀ a ∈ l, ∃ b, R a b) :
    ∃ l', List.Forall₂ R l l' := by
  induction l with
  | nil => exact ⟨[], .nil⟩
  | cons a l ih =>
    obtain ⟨l', hl⟩ := ih (fun x hx => h x (by simp [hx]))
    obtain ⟨b, hb⟩ := h a (by simp)
    exact ⟨b :: l', .cons hb hl⟩

theorem exists_seenAs {K W : Type} {spec : S → Nat} {isMatch : CssSelector S M → Bool}
    {gives : SrcDecl C N T V X Y → List (K × W) → Prop} {r : SrcRule S M C N T V X Y}
    (hl : ∀ s ∈ r.selectors, ∃ p : Path, (p = [] ∨ p.WF) ∧ s.layer = p.dotted)
    (hd : ∀ d ∈ r.decls, ∃ l, gives d l) : ∃ m : MRule K W, SeenAs spec isMatch gives r m := by
  obtain ⟨dl, hdl⟩ := exists_forall2 hd
  refine ⟨⟨(r.selectors.filter isMatch).map fun s => (pathOf s.layer, spec s.selector), dl⟩, ?_, hdl⟩
  intro p s
  simp only [List.mem_map, List.mem_filter, Prod.mk.injEq]
  constructor
  · rintro ⟨sel, ⟨h1, h2⟩, rfl, rfl⟩
    obtain ⟨q, hq, e⟩ := hl sel h1
    rw [e, pathOf_dotted hq]
    exact ⟨hq, sel, h1, h2, e, rfl⟩
  · rintro ⟨hp, sel, h1, h2, h3, h4⟩
    exact ⟨sel, ⟨h1, h2⟩, by rw [h3, pathOf_dotted hp], h4⟩

theorem history_rule {is : List (Item S M C N T V X Y)} {ds : List Path} (h : LayerHistory is ds)
    {r : SrcRule S M C N T V X Y} (hr : r ∈ rulesOf is) :
    ∀ s ∈ r.selectors, ∃ p : Path, (p = [] ∨ p.WF) ∧ s.layer = p.dotted := by
  intro s hs
  obtain ⟨p, hp, e⟩ := history_declared h (layer_mem_names hr hs)
  refine ⟨p, ?_, e⟩
  rcases hp with hp | ⟨h0, d, hd, hpd⟩
  · exact Or.inl hp
  · exact Or.inr (WF_prefix ((forall2_dotted h).2 d hd) hpd h0)

theorem exists_views {K W : Type} (spec : S → Nat) (isMatch : CssSelector S M → Bool)
    {gives : SrcDecl C N T V X Y → List (K × W) → Prop} {is : List (Item S M C N T V X Y)}
    {ds : List Path} (h : LayerHistory is ds)
    (hd : ∀ r ∈ rulesOf is, ∀ d ∈ r.decls, ∃ l, gives d l) :
    ∃ ms : List (MRule K W), List.Forall₂ (SeenAs spec isMatch gives) (rulesOf is) ms :=
  exists_forall2 fun r hr => exists_seenAs (history_rule h hr) (hd r hr)

theorem layerNames_append (a b : List (Item S M C N T V X Y)) :
    layerNames (a ++ b) = layerNames a ++ layerNames b := by
  induction a with
  | nil => rfl
  | cons i a ih => cases i <;> simp [layerNames, ih]

theorem rulesOf_append (a b : List (Item S M C N T V X Y)) :
    rulesOf (a ++ b) = rulesOf a ++ rulesOf b := by
  induction a with
  | nil => rfl
  | cons i a ih => cases i <;> simp [rulesOf, ih]

theorem history_split {a b : List (Item S M C N T V X Y)} {ds : List Path}
    (h : LayerHistory (a ++ b) ds) : ∃ d1 d2, ds = d1 ++ d2 ∧ LayerHistory a d1 ∧ LayerHistory b d2 := by
  unfold LayerHistory at h ⊢
  rw [layerNames_append, List.filter_append] at h
  refine ⟨ds.take ((layerNames a).filter fun t => t ≠ []).length,
    ds.drop ((layerNames a).filter fun t => t ≠ []).length, by simp, ?_, ?_⟩
  · have := List.forall₂_take (((layerNames a).filter fun t => t ≠ []).length) h
    rwa [List.take_left'] at this
    rfl
  · have := List.forall₂_drop (((layerNames a).filter fun t => t ≠ []).length) h
    rwa [List.drop_left'] at this
    rfl

theorem forall2_append_left {α β : Type} {R : α → β → Prop} {a b : List α} :
    ∀ {l : List β}, List.Forall₂ R (a ++ b) l →
      ∃ l1 l2, l = l1 ++ l2 ∧ List.Forall₂ R a l1 ∧ List.Forall₂ R b l2 := by
  induction a with
  | nil => intro l h; exact ⟨[], l, rfl, .nil, h⟩
  | cons x a ih =>
    intro l h
    cases h with
    | cons h1 h2 =>
      obtain ⟨l1, l2, rfl, h3, h4⟩ := ih h2
      exact ⟨_ :: l1, l2, rfl, .cons h1 h3, h4⟩

/-! ## failed declarations -/

section
variable [DecidableEq V] {names : C → Option Nat} {ph : V → PropertyValue V}
  {env : N → Option (VarTokens N T)}

/-- folding the properties of a ruleset -/
def foldProps (names : C → Option Nat) (env : N → Option (VarTokens N T)) (ps : List (RProp C N T V))
    (out : Nat → PropertyValue V) : Option (Nat → PropertyValue V) :=
  ps.foldlM (fun out p => p.apply names env out) out

theorem foldProps_append (ps qs : List (RProp C N T V)) (out : Nat → PropertyValue V) :
    foldProps names env (ps ++ qs) out = (foldProps names env ps out).bind (foldProps names env qs) := by
  unfold foldProps; rw [List.foldlM_append]; rfl

theorem foldProps_cons (p : RProp C N T V) (qs : List (RProp C N T V)) (out : Nat → PropertyValue V) :
    foldProps names env (p :: qs) out = (p.apply names env out).bind (foldProps names env qs) := by
  unfold foldProps; rw [List.foldlM_cons]; rfl

theorem apply_failing {parser : DynParser C T V} {tokens : VarTokens N T}
    (h : ∀ toks, Substituted env tokens toks → parser toks = none) (out : Nat → PropertyValue V) :
    (RProp.dynamic parser tokens : RProp C N T V).apply names env out = some out := by
  unfold RProp.apply
  simp only
  split
  · rfl
  · rename_i toks hr
    rw [h toks (substituted_of_resolve hr)]

/-- two rulesets (built) with the same effect -/
structure SameEffect (names : C → Option Nat) (typeOk : Nat → V → Bool)
    (env : N → Option (VarTokens N T))
    (r r' : Ruleset (RProp C N T V) N T X Y) : Prop where
  fold : ∀ out, foldProps names env r.properties out = foldProps names env r'.properties out
  vars : r.vars = r'.vars
  valid : (∀ p ∈ r.properties, ∀ id v, p = .specific id (.value v) → typeOk id v = true) ↔
    (∀ p ∈ r'.properties, ∀ id v, p = .specific id (.value v) → typeOk id v = true)

theorem validateProps_none_iff (typeOk : Nat → V → Bool) (rs : List (Ruleset (RProp C N T V) N T X Y)) :
    validateProps typeOk rs = none ↔
      ∀ r ∈ rs, ∀ p ∈ r.properties, ∀ id v, p = .specific id (.value v) → typeOk id v = true := by
  unfold validateProps
  rw [List.findSome?_eq_none_iff]
  constructor
  · intro h r hr p hp id v e
    have := h p (List.mem_flatMap.mpr ⟨r, hr, hp⟩)
    rw [e] at this
    simp only at this
    by_contra hn
    rw [if_neg hn] at this
    cases this
  · intro h p hp
    obtain ⟨r, hr, hp⟩ := List.mem_flatMap.mp hp
    have := h r hr p hp
    split
    · rename_i id v
      first | rw [if_pos (this id v rfl)] | rw [if_pos (this v id rfl)] | simp [this]
    · rfl

theorem validate_congr {typeOk : Nat → V → Bool} {rs rs' : List (Ruleset (RProp C N T V) N T X Y)}
    (h : List.Forall₂ (SameEffect names typeOk env) rs rs') :
    validateProps typeOk rs = none ↔ validateProps typeOk rs' = none := by
  rw [validateProps_none_iff, validateProps_none_iff]
  induction h with
  | nil => simp
  | cons h _ ih =>
    simp only [List.forall_mem_cons]
    rw [ih, h.valid]

theorem fetch_congr {typeOk : Nat → V → Bool} {rs rs' : List (Ruleset (RProp C N T V) N T X Y)}
    (h : List.Forall₂ (SameEffect names typeOk env) rs rs') (ids : List Nat) :
    (ids.mapM (fun i => rs[i]?) = none ∧ ids.mapM (fun i => rs'[i]?) = none) ∨
    ∃ l l', ids.mapM (fun i => rs[i]?) = some l ∧ ids.mapM (fun i => rs'[i]?) = some l' ∧
      List.Forall₂ (SameEffect names typeOk env) l l' := by
  induction ids with
  | nil => exact Or.inr ⟨[], [], rfl, rfl, .nil⟩
  | cons i ids ih =>
    rw [List.mapM_cons, List.mapM_cons]
    rcases forall2_getElem? h i with ⟨h1, h2⟩ | ⟨a, a', h1, h2, h3⟩
    · left; rw [h1, h2]; simp
    · rw [h1, h2]
      rcases ih with ⟨e1, e2⟩ | ⟨l, l', e1, e2, e3⟩
      · left; rw [e1, e2]; simp
      · right; rw [e1, e2]; exact ⟨a :: l, a' :: l', rfl, rfl, .cons h3 e3⟩

theorem foldEffect_congr {typeOk : Nat → V → Bool} {l l' : List (Ruleset (RProp C N T V) N T X Y)}
    (h : List.Forall₂ (SameEffect names typeOk env) l l') : ∀ out : Nat → PropertyValue V,
    l.foldlM (fun out r => r.properties.foldlM (fun out p => p.apply names env out) out) out =
    l'.foldlM (fun out r => r.properties.foldlM (fun out p => p.apply names env out) out) out := by
  induction h with
  | nil => intro out; rfl
  | @cons a b l l' h _ ih =>
    intro out
    rw [List.foldlM_cons, List.foldlM_cons]
    have := h.fold out
    unfold foldProps at this
    rw [this]
    cases List.foldlM (fun out p => RProp.apply names env out p) out b.properties with
    | none => rfl
    | some o => exact ih o

theorem varsEffect_congr {typeOk : Nat → V → Bool} {l l' : List (Ruleset (RProp C N T V) N T X Y)}
    (h : List.Forall₂ (SameEffect names typeOk env) l l') : ∀ m : HMap N (VarTokens N T),
    l.foldl (fun m r => m.extend r.vars) m = l'.foldl (fun m r => m.extend r.vars) m := by
  induction h with
  | nil => intro m; rfl
  | cons h _ ih => intro m; rw [List.foldl_cons, List.foldl_cons, h.vars, ih]

theorem sheet_congr {typeOk : Nat → V → Bool} {sh sh' : StyleSheet S M C N T V X Y}
    (h : List.Forall₂ (SameEffect names typeOk env) sh.rulesets sh'.rulesets)
    (inline inline' : Option (Ruleset (RProp C N T V) N T X Y))
    (hi : List.Forall₂ (SameEffect names typeOk env) inline.toList inline'.toList) (ids : List Nat)
    (init : Nat → PropertyValue V) :
    sh.getPropertyValues names env ids inline init = sh'.getPropertyValues names env ids inline' init ∧
    sh.getVars ids inline = sh'.getVars ids inline' := by
  unfold StyleSheet.getPropertyValues StyleSheet.getVars StyleSheet.resolveRulesets
  rcases fetch_congr h ids with ⟨e1, e2⟩ | ⟨l, l', e1, e2, e3⟩
  · rw [e1, e2]; exact ⟨rfl, rfl⟩
  · rw [e1, e2]
    have := List.rel_append e3 hi
    exact ⟨foldEffect_congr this init, congrArg some (varsEffect_congr this [])⟩

theorem SameEffect.refl (typeOk : Nat → V → Bool) (r : Ruleset (RProp C N T V) N T X Y) :
    SameEffect names typeOk env r r := ⟨fun _ => rfl, rfl, Iff.rfl⟩

theorem foldl_addDecl_rest (ds : List (SrcDecl C N T V X Y)) :
    ∀ (r r' : Ruleset (BProp C N T V) N T X Y), r.vars = r'.vars →
      (ds.foldl Ruleset.addDecl r).vars = (ds.foldl Ruleset.addDecl r').vars := by
  induction ds with
  | nil => intro r r' h; exact h
  | cons d ds ih =>
    intro r r' h
    apply ih
    cases d <;> simp [Ruleset.addDecl, Ruleset.addProperty, Ruleset.addVar, Ruleset.addTransition,
      Ruleset.addAnimation, h]

theorem dropFailing_vars {l l' : List (SrcDecl C N T V X Y)} (h : DropFailing env l l') :
    ∀ (r r' : Ruleset (BProp C N T V) N T X Y), r.vars = r'.vars →
      (l.foldl Ruleset.addDecl r).vars = (l'.foldl Ruleset.addDecl r').vars := by
  induction h with
  | nil => intro r r' h; exact h
  | keep d _ ih =>
    intro r r' h
    apply ih
    cases d <;> simp [Ruleset.addDecl, Ruleset.addProperty, Ruleset.addVar, Ruleset.addTransition,
      Ruleset.addAnimation, h]
  | drop parser tokens _ _ ih =>
    intro r r' h
    rw [List.foldl_cons]
    apply ih
    simpa [Ruleset.addDecl, Ruleset.addProperty] using h

theorem dropFailing_props {l l' : List (SrcDecl C N T V X Y)} (h : DropFailing env l l')
    (typeOk : Nat → V → Bool) (ph : V → PropertyValue V) :
    (((propsOf l).map (BProp.placeholder ph)).mapM (BProp.resolve names) = none ∧
      ((propsOf l').map (BProp.placeholder ph)).mapM (BProp.resolve names) = none) ∨
    ∃ ps ps', ((propsOf l).map (BProp.placeholder ph)).mapM (BProp.resolve names) = some ps ∧
      ((propsOf l').map (BProp.placeholder ph)).mapM (BProp.resolve names) = some ps' ∧
      (∀ out, foldProps names env ps out = foldProps names env ps' out) ∧
      ((∀ p ∈ ps, ∀ id v, p = .specific id (.value v) → typeOk id v = true) ↔
        (∀ p ∈ ps', ∀ id v, p = .specific id (.value v) → typeOk id v = true)) := by
  induction h with
  | nil => right; exact ⟨[], [], rfl, rfl, fun _ => rfl, Iff.rfl⟩
  | @keep d l l' _ ih =>
    cases d with
    | prop p =>
      have e : ∀ (l : List (SrcDecl C N T V X Y)), propsOf (.prop p :: l) = p :: propsOf l := fun _ => rfl
      rw [e, e]
      simp only [List.map_cons, List.mapM_cons]
      cases (BProp.placeholder ph p).resolve names with
      | none => left; exact ⟨rfl, rfl⟩
      | some rp =>
        rcases ih with ⟨e1, e2⟩ | ⟨ps, ps', e1, e2, e3, e4⟩
        · left; rw [e1, e2]; exact ⟨rfl, rfl⟩
        · right
          refine ⟨rp :: ps, rp :: ps', ?_, ?_, ?_, ?_⟩
          · simp only [e1]; rfl
          · simp only [e2]; rfl
          · intro out
            rw [foldProps_cons, foldProps_cons]
            cases rp.apply names env out with
            | none => rfl
            | some o => exact e3 o
          · simp only [List.forall_mem_cons]
            rw [e4]
    | var | transition | animation => exact ih
  | @drop parser tokens l l' hf _ ih =>
    have e : propsOf ((SrcDecl.prop (.dynamic parser tokens) : SrcDecl C N T V X Y) :: l) =
      .dynamic parser tokens :: propsOf l := rfl
    rw [e]
    simp only [List.map_cons, List.mapM_cons, BProp.placeholder, BProp.resolve]
    rcases ih with ⟨e1, e2⟩ | ⟨ps, ps', e1, e2, e3, e4⟩
    · left; rw [e1, e2]; exact ⟨rfl, rfl⟩
    · right
      refine ⟨.dynamic parser tokens :: ps, ps', ?_, e2, ?_, ?_⟩
      · simp only [e1]; rfl
      · intro out
        rw [foldProps_cons, apply_failing hf]
        exact e3 out
      · simp only [List.forall_mem_cons]
        rw [← e4]
        simp

theorem itemDrop_layerNames {is is' : List (Item S M C N T V X Y)}
    (h : List.Forall₂ (ItemDrop env) is is') : layerNames is = layerNames is' := by
  induction h with
  | nil => rfl
  | cons h _ ih => cases h <;> simp [layerNames, ih]

theorem itemDrop_rules {is is' : List (Item S M C N T V X Y)}
    (h : List.Forall₂ (ItemDrop env) is is') :
    List.Forall₂ (fun r r' => r.selectors = r'.selectors ∧ DropFailing env r.decls r'.decls)
      (rulesOf is) (rulesOf is') := by
  induction h with
  | nil => exact .nil
  | cons h _ ih =>
    cases h with
    | layers => exact ih
    | rule sels hd => exact .cons ⟨rfl, hd⟩ ih

theorem numbered_congr {rs rs' : List (SrcRule S M C N T V X Y)}
    (h : List.Forall₂ (fun r r' => r.selectors = r'.selectors ∧ DropFailing env r.decls r'.decls) rs rs') :
    ∀ k, numbered k rs = numbered k rs' := by
  induction h with
  | nil => intro k; rfl
  | cons h _ ih =>
    intro k
    have := ih (k + 1)
    unfold numbered at this ⊢
    rw [List.zipIdx_cons, List.zipIdx_cons, List.flatMap_cons, List.flatMap_cons, this, h.1]

/-- resolution of bodies equal up to failing declarations -/
theorem bodies_resolve {rs rs' : List (SrcRule S M C N T V X Y)} (typeOk : Nat → V → Bool)
    (h : List.Forall₂ (fun r r' => r.selectors = r'.selectors ∧ DropFailing env r.decls r'.decls) rs rs') :
    ((rs.map fun r => place ph (body r)).mapM (Ruleset.resolve names) = none ∧
     (rs'.map fun r => place ph (body r)).mapM (Ruleset.resolve names) = none) ∨
    ∃ l l', (rs.map fun r => place ph (body r)).mapM (Ruleset.resolve names) = some l ∧
      (rs'.map fun r => place ph (body r)).mapM (Ruleset.resolve names) = some l' ∧
      List.Forall₂ (SameEffect names typeOk env) l l' := by
  induction h with
  | nil => right; exact ⟨[], [], rfl, rfl, .nil⟩
  | @cons r r' rs rs' h _ ih =>
    simp only [List.map_cons, List.mapM_cons]
    have hp : ∀ x : SrcRule S M C N T V X Y, (place ph (body x)).resolve names =
        (((propsOf x.decls).map (BProp.placeholder ph)).mapM (BProp.resolve names)).map fun ps =>
          ⟨(body x).vars, ps, (body x).transitions, (body x).animations⟩ := by
      intro x
      unfold Ruleset.resolve place
      unfold body
      simp only
      rw [foldl_addDecl_props]
      rfl
    rw [hp r, hp r']
    rcases dropFailing_props (names := names) h.2 typeOk ph with ⟨e1, e2⟩ | ⟨ps, ps', e1, e2, e3, e4⟩
    · left; rw [e1, e2]; exact ⟨rfl, rfl⟩
    · rw [e1, e2]
      rcases ih with ⟨i1, i2⟩ | ⟨l, l', i1, i2, i3⟩
      · left; rw [i1, i2]; exact ⟨rfl, rfl⟩
      · right
        rw [i1, i2]
        refine ⟨_, _, rfl, rfl, .cons ⟨e3, ?_, e4⟩ i3⟩
        exact dropFailing_vars h.2 _ _ rfl

/-- The outcome of `build`, by cases, for bodies equal up to failing declarations. -/
theorem build_drop {b b' : Builder S M C N T V X Y} {rs rs' : List (SrcRule S M C N T V X Y)}
    (h : List.Forall₂ (fun r r' => r.selectors = r'.selectors ∧ DropFailing env r.decls r'.decls) rs rs')
    (hl : b.layers = b'.layers) (hs : b.selectors = b'.selectors)
    (hb : b.rulesets = rs.map body) (hb' : b'.rulesets = rs'.map body)
    (typeOk : Nat → V → Bool) (spec : S → Nat) {sh : StyleSheet S M C N T V X Y}
    (hok : b.build names typeOk spec ph = some (.ok sh)) :
    ∃ sh', b'.build names typeOk spec ph = some (.ok sh') ∧ sh'.selectors = sh.selectors ∧
      List.Forall₂ (SameEffect names typeOk env) sh.rulesets sh'.rulesets := by
  rw [build_ok_iff] at hok
  obtain ⟨h1, h2, h3, h4, h5⟩ := hok
  have hlen : b.rulesets.length = b'.rulesets.length := by
    rw [hb, hb']; simp [h.length_eq]
  rw [hb, List.forall₂_map_left_iff] at h4
  have h4' := (mapM_forall2 (Ruleset.resolve names) (rs.map fun r => place ph (body r)) _).mpr
    (List.forall₂_map_left_iff.mpr h4)
  rcases bodies_resolve (names := names) (ph := ph) typeOk h with ⟨e1, _⟩ | ⟨l, l', e1, e2, e3⟩
  · rw [e1] at h4'; cases h4'
  · rw [e1] at h4'; cases h4'
    refine ⟨⟨l', sh.selectors⟩, ?_, rfl, e3⟩
    rw [build_ok_iff]
    refine ⟨?_, ?_, ?_, ?_, (validate_congr e3).mp h5⟩
    · intro i hi; rw [← hs]; exact h1 i (by omega)
    · rw [← hs, ← hl]; exact h2
    · simp only [h3, hl, hs]
    · rw [hb', List.forall₂_map_left_iff]
      exact List.forall₂_map_left_iff.mp ((mapM_forall2 (Ruleset.resolve names) _ _).mp e2)

theorem build_drop_back {b b' : Builder S M C N T V X Y} {rs rs' : List (SrcRule S M C N T V X Y)}
    (h : List.Forall₂ (fun r r' => r.selectors = r'.selectors ∧ DropFailing env r.decls r'.decls) rs rs')
    (hl : b.layers = b'.layers) (hs : b.selectors = b'.selectors)
    (hb : b.rulesets = rs.map body) (hb' : b'.rulesets = rs'.map body)
    (typeOk : Nat → V → Bool) (spec : S → Nat) {sh' : StyleSheet S M C N T V X Y}
    (hok : b'.build names typeOk spec ph = some (.ok sh')) :
    ∃ sh, b.build names typeOk spec ph = some (.ok sh) := by
  rw [build_ok_iff] at hok
  obtain ⟨h1, h2, h3, h4, h5⟩ := hok
  have hlen : b.rulesets.length = b'.rulesets.length := by
    rw [hb, hb']; simp [h.length_eq]
  rw [hb', List.forall₂_map_left_iff] at h4
  have h4' := (mapM_forall2 (Ruleset.resolve names) (rs'.map fun r => place ph (body r)) _).mpr
    (List.forall₂_map_left_iff.mpr h4)
  rcases bodies_resolve (names := names) (ph := ph) typeOk h with ⟨_, e1⟩ | ⟨l, l', e1, e2, e3⟩
  · rw [e1] at h4'; cases h4'
  · rw [e2] at h4'; cases h4'
    refine ⟨⟨l, sh'.selectors⟩, ?_⟩
    rw [build_ok_iff]
    refine ⟨?_, ?_, ?_, ?_, (validate_congr e3).mpr h5⟩
    · intro i hi; rw [hs]; exact h1 i (by omega)
    · rw [hs, hl]; exact h2
    · simp only [h3, hl, hs]
    · rw [hb, List.forall₂_map_left_iff]
      exact List.forall₂_map_left_iff.mp ((mapM_forall2 (Ruleset.resolve names) _ _).mp e1)

/-! ## outcome of build for builders that realise the same rules -/

/-- the builder can be built -/
theorem Realises.ok_iff {b : Builder S M C N T V X Y} {rules : List (SrcRule S M C N T V X Y)}
    {ds : List Path} (h : Realises names ph b rules ds) (typeOk : Nat → V → Bool) (spec : S → Nat) :
    (∃ sh, b.build names typeOk spec ph = some (.ok sh)) ↔
      (∀ r ∈ rules, r.selectors ≠ []) ∧
      ∃ pss, List.Forall₂ (fun (br : Ruleset (BProp C N T V) N T X Y) ps =>
          (br.properties.map (BProp.placeholder ph)).mapM (BProp.resolve names) = some ps)
        b.rulesets pss ∧
        ∀ ps ∈ pss, ∀ p ∈ ps, ∀ id v, p = .specific id (.value v) → typeOk id v = true := by
  have hno : NoOrphan b ↔ ∀ r ∈ rules, r.selectors ≠ [] := by
    constructor
    · intro hn r hr he
      obtain ⟨i, hi⟩ := List.mem_iff_getElem?.mp hr
      have hlt := (List.getElem?_eq_some_iff.mp hi).1
      rw [← h.bodies.length_eq] at hlt
      obtain ⟨⟨s, j⟩, hs, hj⟩ := hn i hlt
      simp only at hj; subst hj
      obtain ⟨r', hr', hs'⟩ := (h.sels s j).mp hs
      rw [hi] at hr'; cases hr'
      rw [he] at hs'; cases hs'
    · intro hn i hi
      rw [h.bodies.length_eq] at hi
      have := hn _ (List.getElem_mem hi)
      obtain ⟨s, hs⟩ := List.exists_mem_of_ne_nil _ this
      exact ⟨(s, i), (h.sels s i).mpr ⟨_, List.getElem?_eq_getElem hi, hs⟩, rfl⟩
  constructor
  · rintro ⟨sh, hb⟩
    rw [build_ok_iff] at hb
    obtain ⟨h1, h2, h3, h4, h5⟩ := hb
    refine ⟨hno.mp h1, sh.rulesets.map (·.properties), ?_, ?_⟩
    · rw [List.forall₂_map_right_iff]
      refine h4.imp ?_
      intro r r' hr
      unfold Ruleset.resolve place at hr
      simp only [Option.map_eq_some_iff] at hr
      obtain ⟨ps, e, rfl⟩ := hr
      exact e
    · intro ps hps
      obtain ⟨r, hr, rfl⟩ := List.mem_map.mp hps
      exact (validateProps_none_iff _ _).mp h5 r hr
  · rintro ⟨h1, pss, h2, h3⟩
    have : ∃ rs, List.Forall₂ (fun r r' => (place ph r).resolve names = some r') b.rulesets rs ∧
        rs.map (·.properties) = pss := by
      clear h3
      generalize b.rulesets = brs at h2
      induction h2 with
      | nil => exact ⟨[], .nil, rfl⟩
      | @cons br ps brs pss e _ ih =>
        obtain ⟨rs, i1, i2⟩ := ih
        refine ⟨⟨br.vars, ps, br.transitions, br.animations⟩ :: rs, .cons ?_ i1, by simp [i2]⟩
        unfold Ruleset.resolve place
        simp only
        rw [e]
        rfl
    obtain ⟨rs, e1, e2⟩ := this
    refine ⟨⟨rs, b.selectors.mergeSort (selectorLe b.layers spec)⟩, ?_⟩
    rw [build_ok_iff]
    refine ⟨hno.mpr h1, ?_, rfl, e1, ?_⟩
    · intro s hs
      obtain ⟨p, hp, e⟩ := h.lay s hs
      rw [h.layers, e, priority_run h.wf hp]
      rfl
    · rw [validateProps_none_iff]
      intro r hr
      exact h3 _ (by rw [← e2]; exact List.mem_map_of_mem hr)

theorem Realises.inRange {b : Builder S M C N T V X Y} {rules : List (SrcRule S M C N T V X Y)}
    {ds : List Path} (h : Realises names ph b rules ds) : InRange b := by
  rintro ⟨s, i⟩ hs
  obtain ⟨r, hr, _⟩ := (h.sels s i).mp hs
  rw [h.bodies.length_eq]
  exact (List.getElem?_eq_some_iff.mp hr).1

end

end Flair.Sheet
