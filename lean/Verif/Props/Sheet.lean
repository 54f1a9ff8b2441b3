import Verif.Proofs.SheetViews
import Verif.Tactics
/-!
# C03, C04, C05, C08, C09, C10 : the cascade of a style sheet

`names` is the registry's name lookup, `typeOk` its type check, `spec` the specificity of a
selector, `ph` the replacement of placeholder values.  A source `is` is any sequence of `@layer`
statements and rules given to a fresh builder.
-/
namespace Flair.Props
set_option linter.unusedSectionVars false
open Flair.Spec Flair.Sheet Flair.Layers Flair.Vars Flair.Values
variable {S M C N T V X Y : Type} [DecidableEq N] [DecidableEq V]
variable (names : C → Option Nat) (typeOk : Nat → V → Bool) (spec : S → Nat)
  (ph : V → PropertyValue V)

/-- The optional inline style of an element, built from the declarations `inl`. -/
def InlineOf (inl : List (SrcDecl C N T V X Y)) :
    Option (Ruleset (RProp C N T V) N T X Y) → Prop
  | none => inl = []
  | some r => singleRuleset names inl = some r

/-- C03.  For every source, building never panics; if the sheet is built, then for every element
(its set of matching selectors, its variables, its inline style) every property ends with the value
of the winner of the cascade, and with its initial content `init` when nothing assigns it. -/
theorem C03_cascade (is : List (Item S M C N T V X Y)) (ds : List Path) (his : LayerHistory is ds) :
    ∃ b, (Builder.new : Builder S M C N T V X Y).addItems is = some b ∧
      b.build names typeOk spec ph ≠ none ∧
      ∀ sh, b.build names typeOk spec ph = some (.ok sh) →
      ∀ (isMatch : CssSelector S M → Bool) (env : N → Option (VarTokens N T))
        (ms : List (MRule Nat (PropertyValue V)))
        (_ : List.Forall₂ (SeenAs spec isMatch (Gives names ph env)) (rulesOf is) ms)
        (inl : List (SrcDecl C N T V X Y)) (minl : List (List (Nat × PropertyValue V)))
        (_ : List.Forall₂ (Gives names .value env) inl minl)
        (inline : Option (Ruleset (RProp C N T V) N T X Y)) (_ : InlineOf names inl inline)
        (init : Nat → PropertyValue V),
        ∃ out, sh.getPropertyValues names env (sh.matchingIds isMatch) inline init = some out ∧
          ∀ p, ∃ w, Cascade ds ms minl p w ∧ out p = w.getD (init p) := by
  obtain ⟨b, hb, hr⟩ := realises_source names ph his
  refine ⟨b, hb, hr.not_panic typeOk spec, ?_⟩
  intro sh hsh isMatch env ms hms inl minl hminl inline hin init
  refine hr.values hsh isMatch env hms inl hminl inline ?_ init
  cases inline <;> exact hin

/-- C03, the cascade has at most one outcome (so `C03_cascade` determines the value). -/
theorem C03_cascade_unique {K W : Type} {ds : List Path} {rules : List (MRule K W)}
    {inline : List (List (K × W))} {k : K} {a b : Option W} (h : Cascade ds rules inline k a)
    (h' : Cascade ds rules inline k b) : a = b :=
  Cascade_unique h h'

/-- C03, and its hypotheses can always be met: if the names used exist, every source has a view for
every element, and every inline style has its assignments. -/
theorem C03_views_exist (is : List (Item S M C N T V X Y)) (ds : List Path) (his : LayerHistory is ds)
    (hrefs : ∀ r ∈ rulesOf is, ∀ d ∈ r.decls, RefsOk names d)
    (inl : List (SrcDecl C N T V X Y)) (hinl : ∀ d ∈ inl, RefsOk names d)
    (isMatch : CssSelector S M → Bool) (env : N → Option (VarTokens N T)) :
    (∃ ms, List.Forall₂ (SeenAs spec isMatch (Gives names ph env)) (rulesOf is) ms) ∧
    (∃ minl, List.Forall₂ (Gives names .value env) inl minl) ∧
    ∃ inline, singleRuleset names inl = some inline := by
  refine ⟨exists_views spec isMatch his (fun r hr d hd => exists_gives ph env (hrefs r hr d hd)), ?_, ?_⟩
  · exact exists_forall2 (fun d hd => exists_gives .value env (hinl d hd))
  · obtain ⟨minl, hm⟩ := exists_forall2 (R := Gives names .value env)
      (fun d hd => exists_gives PropertyValue.value env (hinl d hd))
    obtain ⟨rps, hrps⟩ := resolve_of_gives hm
    have hid : (BProp.placeholder PropertyValue.value : BProp C N T V → BProp C N T V) = id := by
      funext p
      unfold BProp.placeholder
      split <;> rfl
    rw [hid, List.map_id] at hrps
    unfold singleRuleset Ruleset.resolve
    rw [foldl_addDecl_props]
    simp only [Ruleset.empty, List.nil_append, hrps]
    exact ⟨_, rfl⟩

/-- C05.  The variables of an element are, name by name, the winners of the cascade over the
variable definitions of the matching rules and the inline style. -/
theorem C05_vars_cascade (is : List (Item S M C N T V X Y)) (ds : List Path) (his : LayerHistory is ds)
    (b : Builder S M C N T V X Y) (hb : (Builder.new : Builder S M C N T V X Y).addItems is = some b)
    (sh : StyleSheet S M C N T V X Y) (hsh : b.build names typeOk spec ph = some (.ok sh))
    (isMatch : CssSelector S M → Bool) (inl : List (SrcDecl C N T V X Y))
    (inline : Option (Ruleset (RProp C N T V) N T X Y)) (hin : InlineOf names inl inline) :
    (∃ ms, List.Forall₂ (SeenAs spec isMatch (fun d l => l = givesVars d)) (rulesOf is) ms) ∧
    ∀ (ms : List (MRule N (VarTokens N T)))
      (_ : List.Forall₂ (SeenAs spec isMatch (fun d l => l = givesVars d)) (rulesOf is) ms),
      ∃ vars, sh.getVars (sh.matchingIds isMatch) inline = some vars ∧
        ∀ n, Cascade ds ms (inl.map givesVars) n (vars.get? n) := by
  obtain ⟨b', hb', hr⟩ := realises_source names ph his
  rw [hb] at hb'; cases hb'
  refine ⟨exists_views spec isMatch his (fun _ _ d _ => ⟨givesVars d, rfl⟩), ?_⟩
  intro ms hms
  refine hr.vars hsh isMatch hms inl inline ?_
  cases inline <;> exact hin

/-- C04.  A `var()` declaration whose text cannot be substituted, or does not parse once
substituted, is as good as not written.  `is'` is `is` with any number of such declarations (failing
for the element's environment `env`) deleted; same for the inline style.  One sheet is built iff the
other is, and they give the same properties and variables. -/
theorem C04_failed_declaration (env : N → Option (VarTokens N T))
    (is is' : List (Item S M C N T V X Y)) (ds : List Path) (his : LayerHistory is ds)
    (hdrop : List.Forall₂ (ItemDrop env) is is')
    (inl inl' : List (SrcDecl C N T V X Y)) (hinl : DropFailing env inl inl') :
    LayerHistory is' ds ∧
    ∃ b b', (Builder.new : Builder S M C N T V X Y).addItems is = some b ∧
      (Builder.new : Builder S M C N T V X Y).addItems is' = some b' ∧
      ((∃ sh, b.build names typeOk spec ph = some (.ok sh)) ↔
        ∃ sh, b'.build names typeOk spec ph = some (.ok sh)) ∧
      ((∃ i, singleRuleset names inl = some i) ↔ ∃ i, singleRuleset names inl' = some i) ∧
      ∀ sh sh', b.build names typeOk spec ph = some (.ok sh) →
        b'.build names typeOk spec ph = some (.ok sh') →
      ∀ i i', singleRuleset names inl = some i → singleRuleset names inl' = some i' →
      ∀ (isMatch : CssSelector S M → Bool) (init : Nat → PropertyValue V),
        sh.getPropertyValues names env (sh.matchingIds isMatch) (some i) init =
          sh'.getPropertyValues names env (sh'.matchingIds isMatch) (some i') init ∧
        sh.getVars (sh.matchingIds isMatch) (some i) =
          sh'.getVars (sh'.matchingIds isMatch) (some i') := by
  have hl := itemDrop_layerNames hdrop
  have hr := itemDrop_rules hdrop
  have his' : LayerHistory is' ds := by unfold LayerHistory at his ⊢; rw [← hl]; exact his
  obtain ⟨b, hb, hrb⟩ := realises_source names ph his
  obtain ⟨b', hb', hrb'⟩ := realises_source names ph his'
  have e := addItems_eq is (Builder.new : Builder S M C N T V X Y)
  have e' := addItems_eq is' (Builder.new : Builder S M C N T V X Y)
  rw [hb] at e
  rw [hb', ← hl] at e'
  have hnum := numbered_congr hr 0
  have hfacts : b.layers = b'.layers ∧ b.selectors = b'.selectors ∧
      b.rulesets = (rulesOf is).map body ∧ b'.rulesets = (rulesOf is').map body := by
    simp only [Builder.new] at e e'
    cases hh : (layerNames is).foldlM defineLayer [] with
    | none => rw [hh] at e; cases e
    | some l =>
      rw [hh] at e e'
      simp only [Option.map_some, Option.some.injEq, List.nil_append, List.length_nil] at e e'
      subst e; subst e'
      exact ⟨rfl, hnum, rfl, rfl⟩
  obtain ⟨f1, f2, f3, f4⟩ := hfacts
  have hsing : (singleRuleset names inl = none ∧ singleRuleset names inl' = none) ∨
      ∃ i i', singleRuleset names inl = some i ∧ singleRuleset names inl' = some i' ∧
        SameEffect names typeOk env i i' := by
    have hid : (BProp.placeholder PropertyValue.value : BProp C N T V → BProp C N T V) = id := by
      funext p
      unfold BProp.placeholder
      split <;> rfl
    have hd := dropFailing_props (names := names) hinl typeOk PropertyValue.value
    rw [hid, List.map_id, List.map_id] at hd
    unfold singleRuleset Ruleset.resolve
    rw [foldl_addDecl_props, foldl_addDecl_props]
    simp only [Ruleset.empty, List.nil_append]
    rcases hd with ⟨h1, h2⟩ | ⟨ps, ps', h1, h2, h3, h4⟩
    · left; rw [h1, h2]; exact ⟨rfl, rfl⟩
    · right; rw [h1, h2]
      exact ⟨_, _, rfl, rfl, h3, dropFailing_vars hinl _ _ rfl, h4⟩
  refine ⟨his', b, b', hb, hb', ⟨?_, ?_⟩, ⟨?_, ?_⟩, ?_⟩
  · rintro ⟨sh, h⟩
    obtain ⟨sh', h', _⟩ := build_drop hr f1 f2 f3 f4 typeOk spec h
    exact ⟨sh', h'⟩
  · rintro ⟨sh, h⟩
    exact build_drop_back hr f1 f2 f3 f4 typeOk spec h
  · rintro ⟨i, hi⟩
    rcases hsing with ⟨h1, _⟩ | ⟨_, i', _, h2, _⟩
    · rw [hi] at h1; cases h1
    · exact ⟨i', h2⟩
  · rintro ⟨i, hi⟩
    rcases hsing with ⟨_, h1⟩ | ⟨i', _, h2, _, _⟩
    · rw [hi] at h1; cases h1
    · exact ⟨i', h2⟩
  · intro sh sh' h h' i i' hi hi' isMatch init
    obtain ⟨sh'', h'', g1, g2⟩ := build_drop hr f1 f2 f3 f4 typeOk spec h
    rw [h'] at h''; cases h''
    rcases hsing with ⟨h1, _⟩ | ⟨j, j', k1, k2, k3⟩
    · rw [hi] at h1; cases h1
    · rw [hi] at k1; cases k1
      rw [hi'] at k2; cases k2
      have hm : sh'.matchingIds isMatch = sh.matchingIds isMatch := by
        unfold StyleSheet.matchingIds; rw [g1]
      rw [hm]
      exact sheet_congr g2 (some i) (some i') (.cons k3 .nil) _ init

/-- C08.  For a builder whose selectors all point to existing rulesets (every builder operation
keeps this, `C08_in_range`): removing the empty rulesets succeeds and leaves no empty ruleset; it
introduces no orphan; if the sheet could be built before it can be built after, and both give every
element the same properties, variables, transition declarations and animation declarations. -/
theorem C08_remove_empty (b : Builder S M C N T V X Y)
    (hr : ∀ s ∈ b.selectors, s.2 < b.rulesets.length) :
    ∃ b', b.removeAllEmpty = some b' ∧
      (∀ r ∈ b'.rulesets, r.isEmpty = false) ∧
      (b.firstOrphan = none → b'.firstOrphan = none) ∧
      ∀ sh, b.build names typeOk spec ph = some (.ok sh) →
      ∃ sh', b'.build names typeOk spec ph = some (.ok sh') ∧
        ∀ (isMatch : CssSelector S M → Bool) (env : N → Option (VarTokens N T))
          (inline : Option (Ruleset (RProp C N T V) N T X Y)) (init : Nat → PropertyValue V),
        sh'.getPropertyValues names env (sh'.matchingIds isMatch) inline init =
          sh.getPropertyValues names env (sh.matchingIds isMatch) inline init ∧
        sh'.getVars (sh'.matchingIds isMatch) inline = sh.getVars (sh.matchingIds isMatch) inline ∧
        sh'.getTransitions (sh'.matchingIds isMatch) inline =
          sh.getTransitions (sh.matchingIds isMatch) inline ∧
        sh'.getAnimations (sh'.matchingIds isMatch) inline =
          sh.getAnimations (sh.matchingIds isMatch) inline := by
  obtain ⟨b', e1, e2, e3, e4, e5, e6⟩ := removeEmptyFrom_facts b 0 hr (by omega)
  refine ⟨b', e1, ?_, ?_, ?_⟩
  · intro r hr'
    rw [e5] at hr'
    simpa using (List.mem_filter.mp hr').2
  · rw [firstOrphan_none_iff, firstOrphan_none_iff]; exact e4
  · intro sh hsh
    obtain ⟨b'', g1, sh', g2, g3, g4⟩ := build_removeAllEmpty hr hsh
    unfold Builder.removeAllEmpty at g1
    rw [e1] at g1; cases g1
    refine ⟨sh', g2, ?_⟩
    intro isMatch env inline init
    have h := g4 isMatch
    have hin : ∀ (x : StyleSheet S M C N T V X Y) (ids : List Nat),
        x.resolveRulesets ids inline = (x.resolveRulesets ids none).map (· ++ inline.toList) := by
      intro x ids
      unfold StyleSheet.resolveRulesets
      cases ids.mapM fun id => x.rulesets[id]? <;> simp
    have hrest : sh'.getTransitions (sh'.matchingIds isMatch) inline =
          sh.getTransitions (sh.matchingIds isMatch) inline ∧
        sh'.getAnimations (sh'.matchingIds isMatch) inline =
          sh.getAnimations (sh.matchingIds isMatch) inline := by
      unfold StyleSheet.getTransitions StyleSheet.getAnimations
      rw [hin, hin, h]
      cases sh.resolveRulesets (sh.matchingIds isMatch) none with
      | none => exact ⟨rfl, rfl⟩
      | some rs =>
        have hf : ∀ {Z : Type} (f : Ruleset (RProp C N T V) N T X Y → List Z),
            (∀ r, r.isEmpty = true → f r = []) →
            (rs.filter fun r => !r.isEmpty).flatMap f = rs.flatMap f := by
          intro Z f hf
          induction rs with
          | nil => rfl
          | cons r rs ih =>
            by_cases he : r.isEmpty = true
            · rw [List.filter_cons_of_neg (by simp [he]), List.flatMap_cons, hf r he, ih]; rfl
            · rw [List.filter_cons_of_pos (by simp [he]), List.flatMap_cons, List.flatMap_cons, ih]
        simp only [Option.map_some, Option.some.injEq, List.flatMap_append]
        constructor
        · rw [hf]
          intro r he
          unfold Ruleset.isEmpty at he
          simp only [Bool.and_eq_true, List.isEmpty_iff] at he
          tauto
        · rw [hf]
          intro r he
          unfold Ruleset.isEmpty at he
          simp only [Bool.and_eq_true, List.isEmpty_iff] at he
          tauto
    refine and_assoc.mp ⟨?_, hrest⟩
    unfold StyleSheet.getPropertyValues StyleSheet.getVars
    rw [hin, hin, h]
    cases hrs : sh.resolveRulesets (sh.matchingIds isMatch) none with
    | none => exact ⟨rfl, rfl⟩
    | some rs =>
      simp only [Option.map_some, Option.bind_some, Option.some.injEq]
      constructor
      · rw [List.foldlM_append, List.foldlM_append]
        congr 1
        clear hrs h
        induction rs generalizing init with
        | nil => rfl
        | cons r rs ih =>
          by_cases he : r.isEmpty = true
          · rw [List.filter_cons_of_neg (by simp [he]), List.foldlM_cons]
            have hp : r.properties = [] := by
              unfold Ruleset.isEmpty at he
              simp only [Bool.and_eq_true, List.isEmpty_iff] at he
              exact he.1.1.2
            rw [hp]
            exact ih init
          · rw [List.filter_cons_of_pos (by simp [he]), List.foldlM_cons, List.foldlM_cons]
            cases r.properties.foldlM (fun out p => RProp.apply names env out p) init with
            | none => rfl
            | some o => exact ih o
      · rw [List.foldl_append, List.foldl_append]
        congr 1
        clear hrs h
        have : ∀ m : HMap N (VarTokens N T),
            List.foldl (fun (m : HMap N (VarTokens N T)) (r : Ruleset (RProp C N T V) N T X Y) =>
              m.extend r.vars) m (rs.filter fun r => !r.isEmpty) =
            List.foldl (fun (m : HMap N (VarTokens N T)) (r : Ruleset (RProp C N T V) N T X Y) =>
              m.extend r.vars) m rs := by
          induction rs with
          | nil => intro m; rfl
          | cons r rs ih =>
            intro m
            by_cases he : r.isEmpty = true
            · rw [List.filter_cons_of_neg (by simp [he]), List.foldl_cons]
              have hp : r.vars = [] := by
                unfold Ruleset.isEmpty at he
                simp only [Bool.and_eq_true, List.isEmpty_iff] at he
                exact he.1.1.1
              rw [hp]
              exact ih m
            · rw [List.filter_cons_of_pos (by simp [he]), List.foldl_cons, List.foldl_cons]
              exact ih _
        exact this []

/-- C08, the hypothesis of `C08_remove_empty` holds for every builder made by the builder's
operations. -/
theorem C08_in_range :
    let Ok := fun b : Builder S M C N T V X Y => ∀ s ∈ b.selectors, s.2 < b.rulesets.length
    Ok Builder.new ∧
    (∀ b ls b', Ok b → b.defineLayers ls = some b' → Ok b') ∧
    (∀ b, Ok b → Ok b.newRuleset.1) ∧
    (∀ b id s b', Ok b → id < b.rulesets.length → b.addCssSelector id s = some b' → Ok b') ∧
    (∀ b id f, Ok b → Ok (b.modify id f)) ∧
    (∀ b o l b', Ok b → b.embed o l = some b' → Ok b') ∧
    (∀ b b', Ok b → b.removeAllEmpty = some b' → Ok b') := by
  refine ⟨?_, ?_, ?_, ?_, ?_, ?_, ?_⟩
  · intro s hs; cases hs
  · intro b ls b' hb h
    unfold Builder.defineLayers at h
    simp only [Option.map_eq_some_iff] at h
    obtain ⟨l, _, rfl⟩ := h
    exact hb
  · intro b hb s hs
    have := hb s hs
    simp only [Builder.newRuleset, List.length_append, List.length_singleton]
    omega
  · intro b id s b' hb hid h
    unfold Builder.addCssSelector at h
    simp only [Option.map_eq_some_iff] at h
    obtain ⟨l, _, rfl⟩ := h
    intro t ht
    simp only [List.mem_append, List.mem_singleton] at ht
    rcases ht with ht | rfl
    · exact hb t ht
    · exact hid
  · intro b id f hb s hs
    simpa [Builder.modify] using hb s hs
  · intro b o l b' hb h
    rw [embed_eq] at h
    simp only [Option.map_eq_some_iff] at h
    obtain ⟨ls, _, rfl⟩ := h
    intro s hs
    simp only [List.mem_append, List.mem_flatMap, List.mem_map] at hs
    simp only [List.length_append, List.length_map]
    rcases hs with hs | ⟨⟨r, i⟩, hr, t, _, rfl⟩
    · have := hb s hs; omega
    · have := (mem_zipIdx_zero _ _ _).mp hr
      have := (List.getElem?_eq_some_iff.mp this).1
      simp only; omega
  · intro b b' hb h
    obtain ⟨b'', e1, _, e3, _⟩ := removeEmptyFrom_facts b 0 hb (by omega)
    unfold Builder.removeAllEmpty at h
    rw [e1] at h; cases h
    exact e3

/-- The source with the rules of an imported sheet written in place, inside `@layer x` when the
import has a layer. -/
def inPlace (is1 is2 is3 : List (Item S M C N T V X Y)) (layer : Option Name) :
    List (Item S M C N T V X Y) :=
  is1 ++ (rulesOf is2).map (fun r => Item.rule (inLayer (layer.getD []) r)) ++ is3

/-- C09.  Importing a built sheet between two parts of a source: the resulting sheet can be built
iff the source with the imported rules written in place (in the import's layer) can, and both give
every element the same properties and variables, and transition (animation) declarations with the same outcome:
whatever assignments `eff` one reads off such a declaration, the last assignment to every `k` is the same.  `hsame` holds for parsed rules (one layer per
rule).  The `@layer` statements of the imported sheet are not part of the in-place source: see C10. -/
theorem C09_import_in_place (is1 is2 is3 : List (Item S M C N T V X Y)) (layer : Option Name)
    (hlayer : layer ≠ some []) (hph : PhDone ph)
    (hsame : ∀ r ∈ rulesOf is2, SameLayer r)
    (hrefs : ∀ r ∈ rulesOf (is1 ++ is2 ++ is3), ∀ d ∈ r.decls, RefsOk names d)
    (ds ds2 : List Path) (h : LayerHistory (inPlace is1 is2 is3 layer) ds) (h2 : LayerHistory is2 ds2)
    (b2 : Builder S M C N T V X Y) (hb2 : (Builder.new : Builder S M C N T V X Y).addItems is2 = some b2)
    (o : StyleSheet S M C N T V X Y) (ho : b2.build names typeOk spec ph = some (.ok o)) :
    ∃ bi bc, (((Builder.new : Builder S M C N T V X Y).addItems is1).bind fun b1 =>
        (b1.embed o layer).bind fun b => b.addItems is3) = some bi ∧
      (Builder.new : Builder S M C N T V X Y).addItems (inPlace is1 is2 is3 layer) = some bc ∧
      ((∃ sh, bi.build names typeOk spec ph = some (.ok sh)) ↔
        ∃ sh, bc.build names typeOk spec ph = some (.ok sh)) ∧
      ∀ si sc, bi.build names typeOk spec ph = some (.ok si) →
        bc.build names typeOk spec ph = some (.ok sc) →
      ∀ (isMatch : CssSelector S M → Bool) (env : N → Option (VarTokens N T))
        (inline : Option (Ruleset (RProp C N T V) N T X Y)) (init : Nat → PropertyValue V),
      si.getPropertyValues names env (si.matchingIds isMatch) inline init =
        sc.getPropertyValues names env (sc.matchingIds isMatch) inline init ∧
      ∃ vi vc, si.getVars (si.matchingIds isMatch) inline = some vi ∧
        sc.getVars (sc.matchingIds isMatch) inline = some vc ∧ (∀ n, vi.get? n = vc.get? n) ∧
      ∃ ti tc ai ac, si.getTransitions (si.matchingIds isMatch) inline = some ti ∧
        sc.getTransitions (sc.matchingIds isMatch) inline = some tc ∧
        si.getAnimations (si.matchingIds isMatch) inline = some ai ∧
        sc.getAnimations (sc.matchingIds isMatch) inline = some ac ∧
        (∀ (K W : Type) [DecidableEq K] (eff : X → List (K × W)) (k : K),
          lastWrite (ti.flatMap eff) k = lastWrite (tc.flatMap eff) k) ∧
        ∀ (K W : Type) [DecidableEq K] (eff : Y → List (K × W)) (k : K),
          lastWrite (ai.flatMap eff) k = lastWrite (ac.flatMap eff) k := by
  set x := layer.getD [] with hx
  have hh := h
  unfold inPlace at hh
  obtain ⟨d12, d3, rfl, hd12, hd3⟩ := history_split hh
  obtain ⟨d1, d', rfl, hd1, hd'⟩ := history_split hd12
  obtain ⟨b1, hb1, hr1⟩ := realises_source names ph hd1
  obtain ⟨b2', hb2', hr2⟩ := realises_source names ph h2
  rw [hb2] at hb2'; cases hb2'
  obtain ⟨be, hbe, hre⟩ := hr1.embed hph hr2 ho hlayer hsame hd'
  obtain ⟨bi, hbi, hri⟩ := hre.addItems hd3
  obtain ⟨bc, hbc, hrc⟩ := realises_source names ph h
  have hrules : rulesOf (inPlace is1 is2 is3 layer) =
      rulesOf is1 ++ (rulesOf is2).map (inLayer x) ++ rulesOf is3 := by
    unfold inPlace
    rw [rulesOf_append, rulesOf_append, rulesOf_map_rule]
  rw [hrules] at hrc
  -- build outcome
  have hbodies : bi.rulesets = (rulesOf is1).map body ++
      o.rulesets.map (fun r => Ruleset.empty.addValuesFrom r) ++ (rulesOf is3).map body ∧
      bc.rulesets = (rulesOf is1).map body ++ (rulesOf is2).map (fun r => body (inLayer x r)) ++
        (rulesOf is3).map body := by
    constructor
    · rw [addItems_eq] at hb1 hbi
      rw [embed_eq] at hbe
      simp only [Option.map_eq_some_iff] at hb1 hbi hbe
      obtain ⟨_, _, rfl⟩ := hb1
      obtain ⟨_, _, rfl⟩ := hbe
      obtain ⟨_, _, rfl⟩ := hbi
      simp [Builder.new]
    · rw [addItems_eq] at hbc
      simp only [Option.map_eq_some_iff] at hbc
      obtain ⟨_, _, rfl⟩ := hbc
      simp [Builder.new, hrules]
  have hok2 := ho
  rw [build_ok_iff] at hok2
  obtain ⟨_, _, _, o4, _⟩ := hok2
  have o4' : List.Forall₂ (fun (r : SrcRule S M C N T V X Y) (r' : Ruleset (RProp C N T V) N T X Y) =>
      ((body r).properties.map (BProp.placeholder ph)).mapM (BProp.resolve names) =
        some r'.properties) (rulesOf is2) o.rulesets := by
    have hb2r : b2.rulesets = (rulesOf is2).map body := by
      rw [addItems_eq] at hb2
      simp only [Option.map_eq_some_iff] at hb2
      obtain ⟨_, _, rfl⟩ := hb2
      simp [Builder.new]
    rw [hb2r, List.forall₂_map_left_iff] at o4
    refine o4.imp ?_
    intro r r' hr
    unfold Ruleset.resolve place at hr
    simp only [Option.map_eq_some_iff] at hr
    obtain ⟨ps, e, rfl⟩ := hr
    exact e
  have hmid : ∀ pss : List (List (RProp C N T V)),
      List.Forall₂ (fun (br : Ruleset (BProp C N T V) N T X Y) ps =>
          (br.properties.map (BProp.placeholder ph)).mapM (BProp.resolve names) = some ps)
        (o.rulesets.map (fun r => Ruleset.empty.addValuesFrom r)) pss ↔
      List.Forall₂ (fun (br : Ruleset (BProp C N T V) N T X Y) ps =>
          (br.properties.map (BProp.placeholder ph)).mapM (BProp.resolve names) = some ps)
        ((rulesOf is2).map (fun r => body (inLayer x r))) pss := by
    intro pss
    rw [List.forall₂_map_left_iff, List.forall₂_map_left_iff]
    generalize rulesOf is2 = rs at o4'
    generalize o.rulesets = ors at o4'
    induction o4' generalizing pss with
    | nil => exact ⟨fun h => by cases h; exact .nil, fun h => by cases h; exact .nil⟩
    | @cons r r' rs ors e _ ih =>
      have e2 := place_toBProps hph e
      have e3 : (Ruleset.empty.addValuesFrom r' : Ruleset (BProp C N T V) N T X Y).properties =
          r'.properties.map RProp.toBProp := by simp [Ruleset.addValuesFrom, Ruleset.empty]
      have e4 : body (inLayer x r) = body r := rfl
      constructor
      · rintro (_ | ⟨h1, h2⟩)
        rw [e3, e2] at h1; cases h1
        exact .cons (by rw [e4]; exact e) ((ih _).mp h2)
      · rintro (_ | ⟨h1, h2⟩)
        rw [e4, e] at h1; cases h1
        exact .cons (by rw [e3]; exact e2) ((ih _).mpr h2)
  have hiff : (∃ sh, bi.build names typeOk spec ph = some (.ok sh)) ↔
      ∃ sh, bc.build names typeOk spec ph = some (.ok sh) := by
    rw [hri.ok_iff, hrc.ok_iff]
    apply and_congr_right'
    apply exists_congr
    intro pss
    apply and_congr_left'
    rw [hbodies.1, hbodies.2]
    have split3 : ∀ (m : List (Ruleset (BProp C N T V) N T X Y)),
        List.Forall₂ (fun (br : Ruleset (BProp C N T V) N T X Y) ps =>
          (br.properties.map (BProp.placeholder ph)).mapM (BProp.resolve names) = some ps)
          ((rulesOf is1).map body ++ m ++ (rulesOf is3).map body) pss ↔
        ∃ p1 p2 p3, pss = p1 ++ p2 ++ p3 ∧
          List.Forall₂ (fun (br : Ruleset (BProp C N T V) N T X Y) ps =>
            (br.properties.map (BProp.placeholder ph)).mapM (BProp.resolve names) = some ps)
            ((rulesOf is1).map body) p1 ∧
          List.Forall₂ (fun (br : Ruleset (BProp C N T V) N T X Y) ps =>
            (br.properties.map (BProp.placeholder ph)).mapM (BProp.resolve names) = some ps) m p2 ∧
          List.Forall₂ (fun (br : Ruleset (BProp C N T V) N T X Y) ps =>
            (br.properties.map (BProp.placeholder ph)).mapM (BProp.resolve names) = some ps)
            ((rulesOf is3).map body) p3 := by
      intro m
      constructor
      · intro h
        obtain ⟨l12, l3, rfl, a, b⟩ := forall2_append_left h
        obtain ⟨l1, l2, rfl, a1, a2⟩ := forall2_append_left a
        exact ⟨l1, l2, l3, rfl, a1, a2, b⟩
      · rintro ⟨p1, p2, p3, rfl, h1, h2, h3⟩
        exact List.rel_append (List.rel_append h1 h2) h3
    rw [split3, split3]
    simp only [hmid]
  refine ⟨bi, bc, ?_, hbc, hiff, ?_⟩
  · rw [hb1]; simp only [Option.bind_some]; rw [hbe]; exact hbi
  intro si sc hsi hsc isMatch env inline init
  -- views
  have hrefs' : ∀ r ∈ rulesOf (inPlace is1 is2 is3 layer), ∀ d ∈ r.decls, RefsOk names d := by
    intro r hr d hd
    rw [hrules] at hr
    rw [rulesOf_append, rulesOf_append] at hrefs
    simp only [List.mem_append, List.mem_map] at hr hrefs
    rcases hr with (hr | ⟨r', hr', rfl⟩) | hr
    · exact hrefs r (Or.inl (Or.inl hr)) d hd
    · exact hrefs r' (Or.inl (Or.inr hr')) d hd
    · exact hrefs r (Or.inr hr) d hd
  obtain ⟨ms, hms⟩ := exists_views spec isMatch h
    (fun r hr d hd => exists_gives ph env (hrefs' r hr d hd))
  obtain ⟨mv, hmv⟩ := exists_views (gives := fun d l => l = givesVars d) spec isMatch h
    (fun r hr d hd => ⟨givesVars d, rfl⟩)
  rw [hrules] at hms hmv
  obtain ⟨oi, hoi, hci⟩ := hri.values hsi isMatch env hms [] .nil none rfl init
  obtain ⟨oc, hoc, hcc⟩ := hrc.values hsc isMatch env hms [] .nil none rfl init
  have heq : oi = oc := by
    funext p
    obtain ⟨w, hw, e⟩ := hci p
    obtain ⟨w', hw', e'⟩ := hcc p
    rw [e, e', Cascade_unique hw hw']
  subst heq
  obtain ⟨vi, hvi, hdi⟩ := hri.vars hsi isMatch hmv [] none rfl
  obtain ⟨vc, hvc, hdc⟩ := hrc.vars hsc isMatch hmv [] none rfl
  have hin : ∀ (s : StyleSheet S M C N T V X Y) (ids : List Nat),
      s.resolveRulesets ids inline = (s.resolveRulesets ids none).map (· ++ inline.toList) := by
    intro s ids
    unfold StyleSheet.resolveRulesets
    cases ids.mapM fun id => s.rulesets[id]? <;> simp
  refine ⟨?_, ?_⟩
  · unfold StyleSheet.getPropertyValues at hoi hoc ⊢
    rw [hin, hin]
    cases e1 : si.resolveRulesets (si.matchingIds isMatch) none with
    | none => rw [e1] at hoi; cases hoi
    | some l1 =>
      cases e2 : sc.resolveRulesets (sc.matchingIds isMatch) none with
      | none => rw [e2] at hoc; cases hoc
      | some l2 =>
        rw [e1] at hoi; rw [e2] at hoc
        simp only [Option.bind_some, Option.map_some] at hoi hoc ⊢
        rw [List.foldlM_append, List.foldlM_append, hoi, hoc]
  · unfold StyleSheet.getVars at hvi hvc ⊢
    rw [hin, hin]
    cases e1 : si.resolveRulesets (si.matchingIds isMatch) none with
    | none => rw [e1] at hvi; cases hvi
    | some l1 =>
      cases e2 : sc.resolveRulesets (sc.matchingIds isMatch) none with
      | none => rw [e2] at hvc; cases hvc
      | some l2 =>
        rw [e1] at hvi; rw [e2] at hvc
        simp only [Option.map_some, Option.some.injEq] at hvi hvc ⊢
        refine ⟨_, _, rfl, rfl, ?_, ?_⟩
        · intro n
          rw [List.foldl_append, List.foldl_append, hvi, hvc]
          have e := Cascade_unique (hdi n) (hdc n)
          cases inline with
          | none => exact e
          | some r =>
            simp only [Option.toList_some, List.foldl_cons, List.foldl_nil]
            rw [HMap.get?_extend, HMap.get?_extend, e]
        · unfold StyleSheet.getTransitions StyleSheet.getAnimations
          rw [hin, hin, e1, e2]
          refine ⟨_, _, _, _, rfl, rfl, rfl, rfl, ?_, ?_⟩
          · intro K W _ eff k
            obtain ⟨mt, hmt⟩ := exists_views (gives := fun (d : SrcDecl C N T V X Y) l => l = (givesTransitions d).flatMap eff) spec
              isMatch h (fun r hr d hd => ⟨_, rfl⟩)
            rw [hrules] at hmt
            obtain ⟨ti, hti, hcti⟩ := hri.transitions hsi isMatch eff hmt [] none rfl
            obtain ⟨tc, htc, hctc⟩ := hrc.transitions hsc isMatch eff hmt [] none rfl
            unfold StyleSheet.getTransitions at hti htc
            rw [e1] at hti; rw [e2] at htc
            simp only [Option.map_some, Option.some.injEq] at hti htc
            dsimp only
            simp only [List.flatMap_append, hti, htc, lastWrite_append, Cascade_unique (hcti k) (hctc k)]
          · intro K W _ eff k
            obtain ⟨mt, hmt⟩ := exists_views (gives := fun (d : SrcDecl C N T V X Y) l => l = (givesAnimations d).flatMap eff) spec
              isMatch h (fun r hr d hd => ⟨_, rfl⟩)
            rw [hrules] at hmt
            obtain ⟨ti, hti, hcti⟩ := hri.animations hsi isMatch eff hmt [] none rfl
            obtain ⟨tc, htc, hctc⟩ := hrc.animations hsc isMatch eff hmt [] none rfl
            unfold StyleSheet.getAnimations at hti htc
            rw [e1] at hti; rw [e2] at htc
            simp only [Option.map_some, Option.some.injEq] at hti htc
            dsimp only
            simp only [List.flatMap_append, hti, htc, lastWrite_append, Cascade_unique (hcti k) (hctc k)]

/-! ## Witnesses -/

private abbrev ExItem := Item Nat Unit Unit Char Char Nat Unit Unit
private abbrev ExDecl := SrcDecl Unit Char Char Nat Unit Unit

/-- `@layer a, b;  @layer b { p0: 1; p1: 5 }  @layer a { p0: 2 }  x { --x: '3'; p2: var(--x); p0: var(--y) }`
The selectors are numbers, which are also their specificity. -/
private def exSrc : List ExItem :=
  [ .layers [['a'], ['b']],
    .rule ⟨[⟨['b'], [], 1⟩, ⟨['b'], [], 2⟩],
      [.prop (.specific (.id 0) (.value 1)), .prop (.specific (.id 1) (.value 5))]⟩,
    .rule ⟨[⟨['a'], [], 7⟩], [.prop (.specific (.id 0) (.value 2))]⟩,
    .rule ⟨[⟨[], [], 0⟩],
      [.var 'x' [.token '3'],
       .prop (.dynamic (fun t => if t = ['3'] then some [(.id 2, .value 3)] else none) [.var 'x']),
       .prop (.dynamic (fun _ => some [(.id 0, .value 9)]) [.var 'y'])]⟩ ]

private def exDs : List Path := [[['a']], [['b']], [['b']], [['b']], [['a']]]
private def exEnv : Char → Option (VarTokens Char Char) := fun c => if c = 'x' then some [.token '3'] else none

private theorem exHistory : LayerHistory exSrc exDs := by
  unfold LayerHistory
  show List.Forall₂ _ [['a'], ['b'], ['b'], ['b'], ['a']] _
  refine .cons ?_ (.cons ?_ (.cons ?_ (.cons ?_ (.cons ?_ .nil)))) <;> exact ⟨by decide, rfl⟩

private theorem exRefs : ∀ r ∈ rulesOf exSrc, ∀ d ∈ r.decls, RefsOk (fun _ => none) d := by
  simp only [exSrc, rulesOf, List.forall_mem_cons, List.not_mem_nil, false_imp_iff, implies_true,
    and_true]
  refine ⟨⟨by simp [RefsOk, resolveRef], by simp [RefsOk, resolveRef]⟩, by simp [RefsOk, resolveRef],
    trivial, ?_, ?_⟩
  · intro toks vals h rv hrv
    simp only at h
    split at h
    · cases h; simp at hrv; subst hrv; simp [resolveRef]
    · cases h
  · intro toks vals h rv hrv
    cases h; simp at hrv; subst hrv; simp [resolveRef]

/-- the example sheet is built -/
private theorem exBuild : ∃ b sh, (Builder.new : Builder Nat Unit Unit Char Char Nat Unit Unit).addItems
    exSrc = some b ∧
    b.build (fun _ => none) (fun _ _ => true) id .value = some (.ok sh) := by
  obtain ⟨b, hb, hr⟩ := realises_source (fun _ => none) PropertyValue.value exHistory
  have : ∃ sh, b.build (fun _ => none) (fun _ _ => true) id .value = some (.ok sh) := by
    rw [hr.ok_iff]
    refine ⟨by simp [exSrc, rulesOf], ?_⟩
    have hrs : b.rulesets = (rulesOf exSrc).map body := by
      rw [addItems_eq] at hb
      simp only [Option.map_eq_some_iff] at hb
      obtain ⟨_, _, rfl⟩ := hb
      rfl
    rw [hrs]
    exact ⟨_, .cons rfl (.cons rfl (.cons rfl .nil)), by simp⟩
  obtain ⟨sh, hsh⟩ := this
  exact ⟨b, sh, hb, hsh⟩

/-- `C03_cascade`, `C03_views_exist`: the hypotheses are met by the example (all selectors but
number 2 match), which is built, and the theorem gives its outcome. -/
example : ∃ b sh, (Builder.new : Builder Nat Unit Unit Char Char Nat Unit Unit).addItems exSrc = some b ∧
    b.build (fun _ => none) (fun _ _ => true) id .value = some (.ok sh) ∧
    ∃ ms out, sh.getPropertyValues (fun _ => none) exEnv
        (sh.matchingIds (fun s => s.selector ≠ 2)) none (fun _ => .none) = some out ∧
      ∀ p, ∃ w, Cascade exDs ms [] p w ∧ out p = w.getD .none := by
  obtain ⟨b, sh, hb, hsh⟩ := exBuild
  obtain ⟨b', hb', _, h⟩ := C03_cascade (fun _ => none) (fun _ _ => true) id .value exSrc exDs exHistory
  rw [hb] at hb'; cases hb'
  obtain ⟨⟨ms, hms⟩, _⟩ := C03_views_exist (fun _ => none) id .value exSrc exDs exHistory exRefs []
    (by simp) (fun s => s.selector ≠ 2) exEnv
  obtain ⟨out, h1, h2⟩ := h sh hsh _ exEnv ms hms [] [] .nil none rfl (fun _ => .none)
  exact ⟨b, sh, hb, hsh, ms, out, h1, h2⟩

/-- The cascade in action: rule 0 (layer `b`, specificity 1) beats rule 1 (layer `a`, specificity 7),
because `a` was declared first. -/
example : Cascade exDs
    [⟨[([['b']], 1)], [[(0, 'p')], [(1, 'q')]]⟩, ⟨[([['a']], 7)], [[(0, 'r')]]⟩] [] 0 (some 'p') := by
  refine ⟨⟨.sheet [['b']] 1 0, 0, 0⟩, ⟨_, _, rfl, by simp, rfl, rfl⟩, ?_⟩
  rintro ⟨o, d, s⟩ w h
  cases o with
  | inline => obtain ⟨d', h1, _⟩ := h; simp at h1
  | sheet l sp r =>
    obtain ⟨r', d', h1, h2, h3, h4⟩ := h
    match r, h1 with
    | 0, h1 =>
      simp only [List.getElem?_cons_zero, Option.some.injEq] at h1; subst h1
      simp only [List.mem_singleton, Prod.mk.injEq] at h2
      obtain ⟨rfl, rfl⟩ := h2
      match d, h3 with
      | 0, h3 =>
        simp only [List.getElem?_cons_zero, Option.some.injEq] at h3; subst h3
        match s, h4 with
        | 0, _ => left; rfl
        | s + 1, h4 => simp at h4
      | 1, h3 =>
        simp only [List.getElem?_cons_succ, List.getElem?_cons_zero, Option.some.injEq] at h3; subst h3
        match s, h4 with
        | 0, h4 => simp at h4
        | s + 1, h4 => simp at h4
      | d + 2, h3 => simp at h3
    | 1, h1 =>
      simp only [List.getElem?_cons_succ, List.getElem?_cons_zero, Option.some.injEq] at h1; subst h1
      simp only [List.mem_singleton, Prod.mk.injEq] at h2
      obtain ⟨rfl, rfl⟩ := h2
      right
      left
      right
      refine ⟨[], ['a'], ['b'], [], [], rfl, rfl, by decide, [[['a']]], ?_, ⟨[['a']], by simp, by simp⟩, ?_⟩
      · exact ⟨_, rfl⟩
      · intro d hd; simp at hd; subst hd; simp [List.cons_prefix_cons]
    | r + 2, h1 => simp at h1

/-- `C05_vars_cascade`: same example. -/
example : ∃ b sh, (Builder.new : Builder Nat Unit Unit Char Char Nat Unit Unit).addItems exSrc = some b ∧
    b.build (fun _ => none) (fun _ _ => true) id .value = some (.ok sh) ∧
    InlineOf (fun _ => none) ([] : List ExDecl) none := by
  obtain ⟨b, sh, hb, hsh⟩ := exBuild
  exact ⟨b, sh, hb, hsh, rfl⟩

/-- `C04_failed_declaration`: in the example `p0: var(--y)` fails, since `--y` is not defined. -/
example : ∃ is', List.Forall₂ (ItemDrop exEnv) exSrc is' ∧ is' ≠ exSrc := by
  refine ⟨_, .cons (.layers _) (.cons (.rule _ (.keep _ (.keep _ .nil)))
    (.cons (.rule _ (.keep _ .nil)) (.cons (.rule _ (.keep _ (.keep _ (.drop _ _ ?_ .nil)))) .nil))), ?_⟩
  · rintro toks ⟨h, _⟩
    cases h with
    | var _ _ _ _ _ he => simp [exEnv] at he
  · intro h
    have := congrArg (fun l => l.length) (congrArg (fun (is : List ExItem) => (rulesOf is).flatMap (·.decls)) h)
    simp [exSrc, rulesOf] at this

/-- `C08_remove_empty`: an example with an empty ruleset in the middle. -/
example : let b : Builder Nat Unit Unit Char Char Nat Unit Unit :=
      ⟨[], [⟨[('x', [])], [], [], []⟩, Ruleset.empty, ⟨[('y', [])], [], [], []⟩],
        [(⟨[], [], 1⟩, 0), (⟨[], [], 2⟩, 1), (⟨[], [], 3⟩, 2)]⟩
    (∀ s ∈ b.selectors, s.2 < b.rulesets.length) ∧
    b.build (fun _ => none) (fun _ _ => true) id .value =
      some (.ok ⟨[⟨[('x', [])], [], [], []⟩, ⟨[], [], [], []⟩, ⟨[('y', [])], [], [], []⟩],
        [(⟨[], [], 1⟩, 0), (⟨[], [], 2⟩, 1), (⟨[], [], 3⟩, 2)]⟩) := by
  refine ⟨by decide, ?_⟩
  rw [build_ok_iff]
  refine ⟨?_, by decide, ?_, .cons rfl (.cons rfl (.cons rfl .nil)), rfl⟩
  · rw [← firstOrphan_none_iff]; rfl
  · exact (List.mergeSort_of_pairwise (by decide)).symm

/-- `C09_import_in_place`: the example sheet is built and can be imported into layer `z` of a sheet
with a rule before and one after. -/
example : ∃ (b2 : Builder Nat Unit Unit Char Char Nat Unit Unit) (o : _) (ds : List Path),
    (Builder.new : Builder Nat Unit Unit Char Char Nat Unit Unit).addItems exSrc = some b2 ∧
    b2.build (fun _ => none) (fun _ _ => true) id .value = some (.ok o) ∧
    PhDone (PropertyValue.value : Nat → PropertyValue Nat) ∧
    (∀ r ∈ rulesOf exSrc, SameLayer r) ∧
    LayerHistory (inPlace [.rule ⟨[⟨['z'], [], 4⟩], []⟩] exSrc [.rule ⟨[⟨[], [], 5⟩], []⟩]
      (some ['z'])) ds := by
  obtain ⟨b, sh, hb, hsh⟩ := exBuild
  refine ⟨b, sh, [[['z']], [['z'], ['b']], [['z'], ['b']], [['z'], ['a']], [['z']]], hb, hsh,
    fun v w h => (by cases h; rfl), by simp [exSrc, rulesOf, SameLayer], ?_⟩
  unfold LayerHistory
  show List.Forall₂ _ [['z'], ['z', '.', 'b'], ['z', '.', 'b'], ['z', '.', 'a'], ['z']] _
  refine .cons ?_ (.cons ?_ (.cons ?_ (.cons ?_ (.cons ?_ .nil)))) <;> exact ⟨by decide, rfl⟩

end Flair.Props
