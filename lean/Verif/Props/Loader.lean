import Verif.Proofs.Load
import Verif.Props.Sheet
import Verif.Spec.Media
/-!
# C11, C12, C13 : loading a nested source

`rp s parents` is the selector `s` with `&` replaced by `parents`, `amp` is the selector `&`.
-/
namespace Flair.Props
set_option linter.unusedSectionVars false
open Flair.Spec Flair.Sheet Flair.Layers Flair.Vars Flair.Values Flair.Loader Flair.Media
variable {S M C N T V X Y : Type} [DecidableEq N] [DecidableEq V]
variable (names : C → Option Nat) (typeOk : Nat → V → Bool) (spec : S → Nat)
  (ph : V → PropertyValue V) (rp : S → List S → S) (amp : S)

/-- what C11 says of a loaded builder -/
private def GivesDoc (src : List (Src S M C N T V X Y)) (ds : List Path)
    (b : Builder S M C N T V X Y) : Prop :=
  b.build names typeOk spec ph ≠ none ∧
  ((∃ sh, b.build names typeOk spec ph = some (.ok sh)) ↔
    ∀ r ∈ docDecls rp amp [] [] src, ∀ d ∈ r.decls, DeclOk names typeOk ph d) ∧
  ∀ sh, b.build names typeOk spec ph = some (.ok sh) →
  ∀ (isMatch : CssSelector S M → Bool) (inl : List (SrcDecl C N T V X Y))
    (inline : Option (Ruleset (RProp C N T V) N T X Y)) (_ : InlineOf names inl inline),
    (∀ (env : N → Option (VarTokens N T)) (ms : List (MRule Nat (PropertyValue V)))
      (_ : List.Forall₂ (SeenAs spec isMatch (Gives names ph env)) (docDecls rp amp [] [] src) ms)
      (minl : List (List (Nat × PropertyValue V)))
      (_ : List.Forall₂ (Gives names .value env) inl minl) (init : Nat → PropertyValue V),
      ∃ out, sh.getPropertyValues names env (sh.matchingIds isMatch) inline init = some out ∧
        ∀ p, ∃ w, Cascade ds ms minl p w ∧ out p = w.getD (init p)) ∧
    (∀ (ms : List (MRule N (VarTokens N T)))
      (_ : List.Forall₂ (SeenAs spec isMatch (fun d l => l = givesVars d))
        (docDecls rp amp [] [] src) ms),
      ∃ vars, sh.getVars (sh.matchingIds isMatch) inline = some vars ∧
        ∀ n, Cascade ds ms (inl.map givesVars) n (vars.get? n)) ∧
    (∀ (K W : Type) [DecidableEq K] (eff : X → List (K × W)) (ms : List (MRule K W))
      (_ : List.Forall₂ (SeenAs spec isMatch (fun d l => l = (givesTransitions d).flatMap eff))
        (docDecls rp amp [] [] src) ms),
      ∃ xs, sh.getTransitions (sh.matchingIds isMatch) inline = some xs ∧
        ∀ k, Cascade ds ms (inl.map fun d => (givesTransitions d).flatMap eff) k (lastWrite (xs.flatMap eff) k)) ∧
    ∀ (K W : Type) [DecidableEq K] (eff : Y → List (K × W)) (ms : List (MRule K W))
      (_ : List.Forall₂ (SeenAs spec isMatch (fun d l => l = (givesAnimations d).flatMap eff))
        (docDecls rp amp [] [] src) ms),
      ∃ ys, sh.getAnimations (sh.matchingIds isMatch) inline = some ys ∧
        ∀ k, Cascade ds ms (inl.map fun d => (givesAnimations d).flatMap eff) k (lastWrite (ys.flatMap eff) k)

private theorem load_main (src : List (Src S M C N T V X Y)) (hp : Proper src) (ds : List Path)
    (hds : DocHistory src ds) :
    ∃ b, (∀ mode, (HasError src ∧ mode = .returnError → loadStylesheet rp amp mode src = some none) ∧
        (¬ (HasError src ∧ mode = .returnError) → loadStylesheet rp amp mode src = some (some b))) ∧
      GivesDoc names typeOk spec ph rp amp src ds b := by
  obtain ⟨rules, b0, b, hre, hex, hne, hbody, hrem, hload⟩ := load_facts names ph rp amp hp hds
  have herr := errors_pos amp src ⟨[], []⟩
  refine ⟨b, ?_, ?_⟩
  · intro mode
    rw [hload mode, ← herr]
    exact ⟨fun h => if_pos h, fun h => if_neg h⟩
  obtain ⟨b', e1, e2, e3, e4⟩ := C08_remove_empty names typeOk spec ph b0 hre.inRange
  rw [hrem] at e1; cases e1
  obtain ⟨b', f1, f2, f3, f4, f5, f6⟩ := removeEmptyFrom_facts b0 0 hre.inRange (by omega)
  have : b0.removeAllEmpty = some b' := f1
  rw [hrem] at this; cases this
  have hprio0 : ∀ s ∈ b0.selectors, (priority b0.layers s.1.layer).isSome := by
    intro s hs
    obtain ⟨p, hp, e⟩ := hre.lay s hs
    rw [hre.layers, e, priority_run hre.wf hp]
    rfl
  have hprio : ∀ s ∈ b.selectors, (priority b.layers s.1.layer).isSome := by
    intro s hs
    have hm : (s.1, b.rulesets[s.2]?) ∈ pairs b.selectors b.rulesets := List.mem_map_of_mem hs
    rw [f6] at hm
    obtain ⟨t, ht, hte⟩ := List.mem_map.mp (List.mem_filter.mp hm).1
    have h1 : t.1 = s.1 := (Prod.mk.inj hte).1
    rw [f2, ← h1]
    exact hprio0 t ht
  have hno0 : NoOrphan b0 := by
    intro id hid
    rw [hbody, List.length_map] at hid
    have hr := hne rules[id] (List.getElem_mem _)
    obtain ⟨sel, hsel⟩ := List.exists_mem_of_ne_nil _ hr
    have := (hre.sels sel id).mpr ⟨rules[id], List.getElem?_eq_getElem hid, hsel⟩
    exact ⟨_, this, rfl⟩
  have hokall : (∀ r ∈ docDecls rp amp [] [] src, ∀ d ∈ r.decls, DeclOk names typeOk ph d) ↔
      ∀ br ∈ b0.rulesets, RulesetOk names typeOk ph br := by
    rw [← hex, ← mem_explodeR, hbody]
    simp only [List.mem_map, forall_exists_index, and_imp, forall_apply_eq_imp_iff₂]
    exact forall₂_congr (fun r _ => (rulesetOk_body names typeOk ph r).symm)
  have hb0 : (∃ sh, b.build names typeOk spec ph = some (.ok sh)) →
      ∃ sh, b0.build names typeOk spec ph = some (.ok sh) := by
    intro h
    rw [build_ok_iff'] at h ⊢
    refine ⟨hno0, hprio0, ?_⟩
    intro br hbr
    by_cases hemp : br.isEmpty = true
    · exact rulesetOk_empty hemp
    · exact h.2.2 br (by rw [f5]; exact List.mem_filter.mpr ⟨hbr, by simp [hemp]⟩)
  refine ⟨build_ne_none hprio, ?_, ?_⟩
  · rw [hokall]
    constructor
    · intro h
      exact (build_ok_iff'.mp (hb0 h)).2.2
    · intro h
      rw [build_ok_iff']
      refine ⟨f4 hno0, hprio, ?_⟩
      intro br hbr
      rw [f5] at hbr
      exact h br (List.mem_filter.mp hbr).1
  · intro sh hsh isMatch inl inline hin
    obtain ⟨sh0, hsh0⟩ := hb0 ⟨sh, hsh⟩
    obtain ⟨sh', g1, g2⟩ := e4 sh0 hsh0
    rw [hsh] at g1; cases g1
    have hlay : ∀ r ∈ rules, ∀ s ∈ r.selectors, ∃ p : Path, (p = [] ∨ p.WF) ∧ s.layer = p.dotted := by
      intro r hr s hs
      obtain ⟨i, hi⟩ := List.getElem?_of_mem hr
      obtain ⟨p, hp, e⟩ := hre.lay (s, i) ((hre.sels s i).mpr ⟨r, hi, hs⟩)
      refine ⟨p, ?_, e⟩
      rcases hp with hp | ⟨hp1, d, hd, hpd⟩
      · exact Or.inl hp
      · refine Or.inr ⟨hp1, fun c hc => (hre.wf d hd).2 c (hpd.subset hc)⟩
    refine ⟨?_, ?_, ?_, ?_⟩
    · intro env ms hms minl hminl init
      rw [← hex] at hms
      obtain ⟨ms0, v1, v2⟩ := group_views rules hlay ms hms
      obtain ⟨out, o1, o2⟩ := hre.values hsh0 isMatch env v1 inl hminl inline
        (by cases inline <;> exact hin) init
      refine ⟨out, ?_, ?_⟩
      · rw [(g2 isMatch env inline init).1]; exact o1
      · intro p
        obtain ⟨w, c1, c2⟩ := o2 p
        exact ⟨w, cascade_congr v2 (cascade_explode c1), c2⟩
    · intro ms hms
      rw [← hex] at hms
      obtain ⟨ms0, v1, v2⟩ := group_views rules hlay ms hms
      obtain ⟨out, o1, o2⟩ := hre.vars hsh0 isMatch v1 inl inline (by cases inline <;> exact hin)
      refine ⟨out, ?_, ?_⟩
      · rw [(g2 isMatch (fun _ => none) inline (fun _ => .none)).2.1]; exact o1
      · intro n
        exact cascade_congr v2 (cascade_explode (o2 n))
    · intro K W _ eff ms hms
      rw [← hex] at hms
      obtain ⟨ms0, v1, v2⟩ := group_views rules hlay ms hms
      obtain ⟨out, o1, o2⟩ := hre.transitions hsh0 isMatch eff v1 inl inline (by cases inline <;> exact hin)
      refine ⟨out, ?_, ?_⟩
      · rw [(g2 isMatch (fun _ => none) inline (fun _ => .none)).2.2.1]; exact o1
      · intro n
        exact cascade_congr v2 (cascade_explode (o2 n))
    · intro K W _ eff ms hms
      rw [← hex] at hms
      obtain ⟨ms0, v1, v2⟩ := group_views rules hlay ms hms
      obtain ⟨out, o1, o2⟩ := hre.animations hsh0 isMatch eff v1 inl inline (by cases inline <;> exact hin)
      refine ⟨out, ?_, ?_⟩
      · rw [(g2 isMatch (fun _ => none) inline (fun _ => .none)).2.2.2]; exact o1
      · intro n
        exact cascade_congr v2 (cascade_explode (o2 n))

/-- C11.  Loading a source with nested rules (in a mode that tolerates errors).  The sheet can be
built iff all the declarations written in valid rules are acceptable, and every element then gets, for
each property, for each variable, and for whatever its transition and animation declarations assign, the winner of the cascade over the declarations taken one by one
in the order in which they are written, each under the selectors, the layer and the media conditions
it is nested in (`docDecls`). -/
theorem C11_document_order (src : List (Src S M C N T V X Y)) (hp : Proper src) (ds : List Path)
    (hds : DocHistory src ds) (mode : ErrorMode) (hmode : mode ≠ .returnError) :
    ∃ b, loadStylesheet rp amp mode src = some (some b) ∧
      b.build names typeOk spec ph ≠ none ∧
      ((∃ sh, b.build names typeOk spec ph = some (.ok sh)) ↔
        ∀ r ∈ docDecls rp amp [] [] src, ∀ d ∈ r.decls, DeclOk names typeOk ph d) ∧
      ∀ sh, b.build names typeOk spec ph = some (.ok sh) →
      ∀ (isMatch : CssSelector S M → Bool) (inl : List (SrcDecl C N T V X Y))
        (inline : Option (Ruleset (RProp C N T V) N T X Y)) (_ : InlineOf names inl inline),
        (∀ (env : N → Option (VarTokens N T)) (ms : List (MRule Nat (PropertyValue V)))
          (_ : List.Forall₂ (SeenAs spec isMatch (Gives names ph env)) (docDecls rp amp [] [] src) ms)
          (minl : List (List (Nat × PropertyValue V)))
          (_ : List.Forall₂ (Gives names .value env) inl minl) (init : Nat → PropertyValue V),
          ∃ out, sh.getPropertyValues names env (sh.matchingIds isMatch) inline init = some out ∧
            ∀ p, ∃ w, Cascade ds ms minl p w ∧ out p = w.getD (init p)) ∧
        (∀ (ms : List (MRule N (VarTokens N T)))
          (_ : List.Forall₂ (SeenAs spec isMatch (fun d l => l = givesVars d))
            (docDecls rp amp [] [] src) ms),
          ∃ vars, sh.getVars (sh.matchingIds isMatch) inline = some vars ∧
            ∀ n, Cascade ds ms (inl.map givesVars) n (vars.get? n)) ∧
        (∀ (K W : Type) [DecidableEq K] (eff : X → List (K × W)) (ms : List (MRule K W))
          (_ : List.Forall₂ (SeenAs spec isMatch (fun d l => l = (givesTransitions d).flatMap eff))
            (docDecls rp amp [] [] src) ms),
          ∃ xs, sh.getTransitions (sh.matchingIds isMatch) inline = some xs ∧
            ∀ k, Cascade ds ms (inl.map fun d => (givesTransitions d).flatMap eff) k (lastWrite (xs.flatMap eff) k)) ∧
        ∀ (K W : Type) [DecidableEq K] (eff : Y → List (K × W)) (ms : List (MRule K W))
          (_ : List.Forall₂ (SeenAs spec isMatch (fun d l => l = (givesAnimations d).flatMap eff))
            (docDecls rp amp [] [] src) ms),
          ∃ ys, sh.getAnimations (sh.matchingIds isMatch) inline = some ys ∧
            ∀ k, Cascade ds ms (inl.map fun d => (givesAnimations d).flatMap eff) k (lastWrite (ys.flatMap eff) k) := by
  obtain ⟨b, h1, h2⟩ := load_main names typeOk spec ph rp amp src hp ds hds
  refine ⟨b, ?_, h2⟩
  exact (h1 mode).2 (by simp [hmode])

/-- the declarations of a proper source are in proper layers -/
private theorem doc_layers_ok (src : List (Src S M C N T V X Y)) (hp : Proper src) (ds : List Path)
    (hds : DocHistory src ds) : ∀ r ∈ docDecls rp amp [] [] src, ∀ s ∈ r.selectors,
      ∃ p : Path, (p = [] ∨ p.WF) ∧ s.layer = p.dotted := by
  obtain ⟨rules, b0, b, hre, hex, hne, hbody, hrem, hload⟩ :=
    load_facts (fun _ => none) (PropertyValue.value) rp amp hp hds
  intro r hr s hs
  rw [← hex] at hr
  unfold explodeR at hr
  simp only [List.mem_flatMap, List.mem_map] at hr
  obtain ⟨r0, hr0, d, _, rfl⟩ := hr
  obtain ⟨i, hi⟩ := List.getElem?_of_mem hr0
  obtain ⟨p, hp, e⟩ := hre.lay (s, i) ((hre.sels s i).mpr ⟨r0, hi, hs⟩)
  refine ⟨p, ?_, e⟩
  rcases hp with hp | ⟨hp1, d, hd, hpd⟩
  · exact Or.inl hp
  · exact Or.inr ⟨hp1, fun c hc => (hre.wf d hd).2 c (hpd.subset hc)⟩

/-- C11, its hypotheses can be met for every source: the single declarations have a view for every
element, when the names used exist. -/
theorem C11_views_exist (src : List (Src S M C N T V X Y)) (hp : Proper src) (ds : List Path)
    (hds : DocHistory src ds) (isMatch : CssSelector S M → Bool) (env : N → Option (VarTokens N T))
    (hrefs : ∀ r ∈ docDecls rp amp [] [] src, ∀ d ∈ r.decls, RefsOk names d) :
    (∃ ms, List.Forall₂ (SeenAs spec isMatch (Gives names ph env)) (docDecls rp amp [] [] src) ms) ∧
    ∃ ms : List (MRule N (VarTokens N T)),
      List.Forall₂ (SeenAs spec isMatch (fun d l => l = givesVars d)) (docDecls rp amp [] [] src) ms := by
  have hl := doc_layers_ok rp amp src hp ds hds
  constructor
  · exact exists_forall2 fun r hr => exists_seenAs (hl r hr)
      (fun d hd => exists_gives ph env (hrefs r hr d hd))
  · exact exists_forall2 fun r hr => exists_seenAs (hl r hr) (fun d _ => ⟨givesVars d, rfl⟩)

/-- C12 (partial: errors that can be reported; an error that cannot be reported crashes the loader, C82, C97).  With `ReturnError`, loading fails iff there is an error somewhere (`HasError`).  With any
other mode, loading succeeds, and so does loading the source without its errors (`cleanSrc`:
erroneous declarations and at-rules deleted, rules with invalid selectors deleted with their
contents); one sheet can be built iff the other can, and they give every element the same properties
and variables, and transition and animation declarations with the same outcome (whatever assignments `eff` one reads
off such a declaration, the last assignment to every `k` is the same). -/
theorem C12_errors_isolated_partial (src : List (Src S M C N T V X Y)) (hp : Proper src) (ds : List Path)
    (hds : DocHistory src ds)
    (hrefs : ∀ r ∈ docDecls rp amp [] [] src, ∀ d ∈ r.decls, RefsOk names d) :
    (loadStylesheet rp amp .returnError src = some none ↔ HasError src) ∧
    ¬ HasError (cleanSrc src) ∧
    ∀ mode, (mode = .returnError → ¬ HasError src) → ∀ mode',
      ∃ b b', loadStylesheet rp amp mode src = some (some b) ∧
      loadStylesheet rp amp mode' (cleanSrc src) = some (some b') ∧
      ((∃ sh, b.build names typeOk spec ph = some (.ok sh)) ↔
        ∃ sh', b'.build names typeOk spec ph = some (.ok sh')) ∧
      ∀ sh sh', b.build names typeOk spec ph = some (.ok sh) →
        b'.build names typeOk spec ph = some (.ok sh') →
      ∀ (isMatch : CssSelector S M → Bool) (env : N → Option (VarTokens N T))
        (inl : List (SrcDecl C N T V X Y)) (_ : ∀ d ∈ inl, RefsOk names d)
        (inline : Option (Ruleset (RProp C N T V) N T X Y)) (_ : InlineOf names inl inline)
        (init : Nat → PropertyValue V),
        (∃ out, sh.getPropertyValues names env (sh.matchingIds isMatch) inline init = some out ∧
          sh'.getPropertyValues names env (sh'.matchingIds isMatch) inline init = some out) ∧
        ∃ vars vars', sh.getVars (sh.matchingIds isMatch) inline = some vars ∧
          sh'.getVars (sh'.matchingIds isMatch) inline = some vars' ∧
          (∀ n, vars.get? n = vars'.get? n) ∧
        ∃ ts ts' ys ys', sh.getTransitions (sh.matchingIds isMatch) inline = some ts ∧
          sh'.getTransitions (sh'.matchingIds isMatch) inline = some ts' ∧
          sh.getAnimations (sh.matchingIds isMatch) inline = some ys ∧
          sh'.getAnimations (sh'.matchingIds isMatch) inline = some ys' ∧
          (∀ (K W : Type) [DecidableEq K] (eff : X → List (K × W)) (k : K),
            lastWrite (ts.flatMap eff) k = lastWrite (ts'.flatMap eff) k) ∧
          ∀ (K W : Type) [DecidableEq K] (eff : Y → List (K × W)) (k : K),
            lastWrite (ys.flatMap eff) k = lastWrite (ys'.flatMap eff) k := by
  obtain ⟨c1, c2, c3, c4⟩ := cleanSrc_facts rp amp src
  have hds' : DocHistory (cleanSrc src) ds := by
    unfold DocHistory at hds ⊢
    rw [c3]; exact hds
  obtain ⟨b, h1, h2⟩ := load_main names typeOk spec ph rp amp src hp ds hds
  obtain ⟨b', h1', h2'⟩ := load_main names typeOk spec ph rp amp (cleanSrc src) (c1 hp) ds hds'
  have hdoc : docDecls rp amp [] [] (cleanSrc src) = docDecls rp amp [] [] src := c4 _ _
  refine ⟨?_, c2, ?_⟩
  · constructor
    · intro h
      by_contra he
      rw [(h1 _).2 (fun h => he h.1)] at h
      cases h
    · intro he
      exact (h1 _).1 ⟨he, rfl⟩
  intro mode hmode mode'
  refine ⟨b, b', ?_, ?_, ?_, ?_⟩
  · exact (h1 _).2 (fun h => hmode h.2 h.1)
  · exact (h1' _).2 (fun h => c2 h.1)
  · rw [h2.2.1, h2'.2.1, hdoc]
  · intro sh sh' hsh hsh' isMatch env inl hinl inline hin init
    obtain ⟨⟨ms, hms⟩, msv, hmsv⟩ :=
      C11_views_exist names spec ph rp amp src hp ds hds isMatch env hrefs
    obtain ⟨minl, hm⟩ := exists_forall2 (R := Gives names .value env)
      (fun d hd => exists_gives PropertyValue.value env (hinl d hd))
    obtain ⟨q1, q2, q3, q4⟩ := h2.2.2 sh hsh isMatch inl inline hin
    obtain ⟨q1', q2', q3', q4'⟩ := h2'.2.2 sh' hsh' isMatch inl inline hin
    rw [hdoc] at q1' q2' q3' q4'
    have hl := doc_layers_ok rp amp src hp ds hds
    have hviews : ∀ {K W : Type} (g : SrcDecl C N T V X Y → List (K × W)), ∃ ms : List (MRule K W),
        List.Forall₂ (SeenAs spec isMatch (fun d l => l = g d)) (docDecls rp amp [] [] src) ms :=
      fun g => exists_forall2 fun r hr => exists_seenAs (hl r hr) (fun d _ => ⟨g d, rfl⟩)
    have ht : ∃ ts ts', sh.getTransitions (sh.matchingIds isMatch) inline = some ts ∧
        sh'.getTransitions (sh'.matchingIds isMatch) inline = some ts' ∧
        ∀ (K W : Type) [DecidableEq K] (eff : X → List (K × W)) (k : K),
          lastWrite (ts.flatMap eff) k = lastWrite (ts'.flatMap eff) k := by
      obtain ⟨m0, hm0⟩ := hviews (fun d => (givesTransitions d).flatMap fun _ => ([] : List (Nat × Nat)))
      obtain ⟨ts, t1, _⟩ := q3 Nat Nat (fun _ => []) m0 hm0
      obtain ⟨ts', t1', _⟩ := q3' Nat Nat (fun _ => []) m0 hm0
      refine ⟨ts, ts', t1, t1', ?_⟩
      intro K W _ eff k
      obtain ⟨mt, hmt⟩ := hviews (fun d => (givesTransitions d).flatMap eff)
      obtain ⟨us, u1, u2⟩ := q3 K W eff mt hmt
      obtain ⟨us', u1', u2'⟩ := q3' K W eff mt hmt
      rw [t1] at u1; cases u1
      rw [t1'] at u1'; cases u1'
      exact Cascade_unique (u2 k) (u2' k)
    have ha : ∃ ys ys', sh.getAnimations (sh.matchingIds isMatch) inline = some ys ∧
        sh'.getAnimations (sh'.matchingIds isMatch) inline = some ys' ∧
        ∀ (K W : Type) [DecidableEq K] (eff : Y → List (K × W)) (k : K),
          lastWrite (ys.flatMap eff) k = lastWrite (ys'.flatMap eff) k := by
      obtain ⟨m0, hm0⟩ := hviews (fun d => (givesAnimations d).flatMap fun _ => ([] : List (Nat × Nat)))
      obtain ⟨ts, t1, _⟩ := q4 Nat Nat (fun _ => []) m0 hm0
      obtain ⟨ts', t1', _⟩ := q4' Nat Nat (fun _ => []) m0 hm0
      refine ⟨ts, ts', t1, t1', ?_⟩
      intro K W _ eff k
      obtain ⟨mt, hmt⟩ := hviews (fun d => (givesAnimations d).flatMap eff)
      obtain ⟨us, u1, u2⟩ := q4 K W eff mt hmt
      obtain ⟨us', u1', u2'⟩ := q4' K W eff mt hmt
      rw [t1] at u1; cases u1
      rw [t1'] at u1'; cases u1'
      exact Cascade_unique (u2 k) (u2' k)
    obtain ⟨ts, ts', ht1, ht2, ht3⟩ := ht
    obtain ⟨ys, ys', hy1, hy2, hy3⟩ := ha
    obtain ⟨out, o1, o2⟩ := q1 env ms hms minl hm init
    obtain ⟨out', o1', o2'⟩ := q1' env ms hms minl hm init
    obtain ⟨vars, v1, v2⟩ := q2 msv hmsv
    obtain ⟨vars', v1', v2'⟩ := q2' msv hmsv
    refine ⟨⟨out, o1, ?_⟩, vars, vars', v1, v1', fun n => Cascade_unique (v2 n) (v2' n),
      ts, ts', ys, ys', ht1, ht2, hy1, hy2, ht3, hy3⟩
    rw [o1']
    congr 1
    funext p
    obtain ⟨w, x1, x2⟩ := o2 p
    obtain ⟨w', y1, y2⟩ := o2' p
    rw [x2, y2, Cascade_unique x1 y1]

/-- C13.  The media conditions of a rule hold together iff each of them holds (an absent feature
makes its condition false, bounds are inclusive, no condition is always true). -/
theorem C13_conjunction (p : Provider) (conds : List Media.Selector) :
    allMatch p conds = true ↔ ∀ c ∈ conds, Holds p c := by
  have hr : ∀ {α : Type} [DecidableEq α] [LE α] [DecidableLE α] (r : Range α) (v : α),
      r.matches v = true ↔ InBounds r v := by
    intro α _ _ _ r v
    cases r <;> simp [Range.matches, InBounds]
  have h1 : ∀ c : Media.Selector, (c.matches p).getD false = true ↔ Holds p c := by
    intro c
    cases c with
    | colorScheme s =>
      cases h : p.colorScheme with
      | none => simp [Selector.matches, Holds, h]
      | some x => simp only [Selector.matches, Holds, h, Option.map_some, Option.getD_some, beq_iff_eq, Option.some.injEq]; exact eq_comm
    | viewportWidth r =>
      cases h : p.width <;> simp [Selector.matches, Holds, h, hr]
    | viewportHeight r =>
      cases h : p.height <;> simp [Selector.matches, Holds, h, hr]
    | resolution r =>
      cases h : p.resolution <;> simp [Selector.matches, Holds, h, hr]
    | aspectRatio r =>
      cases hw : p.width with
      | none => simp [Selector.matches, Holds, Provider.aspectRatio, hw]
      | some w =>
        cases hh : p.height with
        | none => simp [Selector.matches, Holds, Provider.aspectRatio, hw, hh]
        | some h =>
          simp only [Selector.matches, Holds, Provider.aspectRatio, hw, hh, Option.bind_some,
            Option.map_some, Option.getD_some, Option.some.injEq]
          unfold ratio
          by_cases h0 : h = 0
          · by_cases w0 : w = 0
            · simp [h0, w0, Range.matchesRatio]
            · cases r <;> simp [h0, w0, Range.matchesRatio]
          · simp [h0, Range.matchesRatio, hr]
  unfold allMatch
  cases conds with
  | nil => simp
  | cons c cs => simp [h1]

/-- C13, the conditions of an enclosing `@media` block are among those of everything in it. -/
theorem C13_enclosing (layer : Name) (media : List M) (src : List (Src S M C N T V X Y)) :
    ∀ r ∈ docDecls rp amp layer media src, ∀ s ∈ r.selectors, ∀ c ∈ media, c ∈ s.media := by
  have hbody : ∀ (body : List (BodySrc S M C N T V X Y)) (layer : Name) (media : List M) (sels : List S),
      ∀ r ∈ bodyDecls rp amp layer media sels body, ∀ s ∈ r.selectors, ∀ c ∈ media, c ∈ s.media := by
    intro body
    fun_induction cleanBody body with
    | case1 => simp [bodyDecls]
    | case2 ds rest ih =>
      intro layer media sels r hr s hs c hc
      simp only [bodyDecls, List.mem_append, List.mem_map] at hr
      rcases hr with ⟨d, _, rfl⟩ | hr
      · simp only [List.mem_map] at hs
        obtain ⟨s', _, rfl⟩ := hs
        exact hc
      · exact ih _ _ _ r hr s hs c hc
    | case3 rest ih => intro layer media sels r hr; simp only [bodyDecls] at hr; exact ih _ _ _ r hr
    | case4 body rest ih => intro layer media sels r hr; simp only [bodyDecls] at hr; exact ih _ _ _ r hr
    | case5 ss body rest ih1 ih2 =>
      intro layer media sels r hr
      simp only [bodyDecls, List.mem_append] at hr
      rcases hr with hr | hr
      · exact ih1 _ _ _ r hr
      · exact ih2 _ _ _ r hr
    | case6 conds body rest ih1 ih2 =>
      intro layer media sels r hr s hs c hc
      simp only [bodyDecls, List.mem_append] at hr
      rcases hr with hr | hr
      · exact ih1 _ _ _ r hr s hs c (by simp [hc])
      · exact ih2 _ _ _ r hr s hs c hc
    | case7 name body rest ih1 ih2 =>
      intro layer media sels r hr
      simp only [bodyDecls, List.mem_append] at hr
      rcases hr with hr | hr
      · exact ih1 _ _ _ r hr
      · exact ih2 _ _ _ r hr
  fun_induction docDecls rp amp layer media src with
  | case1 => simp
  | case2 layer media name inner rest ih1 ih2 =>
    intro r hr
    rcases List.mem_append.mp hr with hr | hr
    · exact ih1 r hr
    · exact ih2 r hr
  | case3 layer media conds inner rest ih1 ih2 =>
    intro r hr s hs c hc
    rcases List.mem_append.mp hr with hr | hr
    · exact ih1 r hr s hs c (by simp [hc])
    · exact ih2 r hr s hs c hc
  | case4 layer media ss body rest ih =>
    intro r hr
    rcases List.mem_append.mp hr with hr | hr
    · exact hbody _ _ _ _ r hr
    · exact ih r hr
  | case5 layer media i rest h1 h2 h3 ih => exact ih

/-! ## Examples -/

/-- abbreviation for the examples: selectors are lists of numbers, media conditions as in the model -/
private abbrev LSrc := Src (List Nat) Media.Selector Unit Char Char Nat Unit Unit
private abbrev LBody := BodySrc (List Nat) Media.Selector Unit Char Char Nat Unit Unit

private def lset (p v : Nat) : LBody := .decls [.prop (.specific (.id p) (.value v))]

/-- ```
@layer a { .1 { p0: 1; .2 { p0: 2; error } p0: 3; error } }
@media (min-width: 5) { .1 { @media (max-width: 9) { p1: 4 } @layer b { p1: 5 } p1: 6 } }
error-selector { p0: 7 }
@layer x, y { .1 { p0: 8 } }
``` -/
private def lSrc : List LSrc :=
  [.layerBlock [['a']] [.rule (some [[1]])
      [lset 0 1, .rule (some [[2]]) [lset 0 2, .error], lset 0 3, .error]],
   .mediaBlock [.viewportWidth (.greaterOrEqual 5)] [.rule (some [[1]])
      [.media [.viewportWidth (.lessOrEqual 9)] [lset 1 4], .layer ['b'] [lset 1 5], lset 1 6]],
   .rule none [lset 0 7],
   .layerBlock [['x'], ['y']] [.rule (some [[1]]) [lset 0 8]]]

private def lRp (s : List Nat) (ps : List (List Nat)) : List Nat := s ++ ps.flatten

/-- the declarations in document order -/
example : docDecls lRp [0] [] [] lSrc =
    [⟨[⟨['a'], [], [1]⟩], [.prop (.specific (.id 0) (.value 1))]⟩,
     ⟨[⟨['a'], [], [2, 1]⟩], [.prop (.specific (.id 0) (.value 2))]⟩,
     ⟨[⟨['a'], [], [1]⟩], [.prop (.specific (.id 0) (.value 3))]⟩,
     ⟨[⟨[], [.viewportWidth (.greaterOrEqual 5), .viewportWidth (.lessOrEqual 9)], [0, 1]⟩],
       [.prop (.specific (.id 1) (.value 4))]⟩,
     ⟨[⟨['b'], [.viewportWidth (.greaterOrEqual 5)], [0, 1]⟩], [.prop (.specific (.id 1) (.value 5))]⟩,
     ⟨[⟨[], [.viewportWidth (.greaterOrEqual 5)], [1]⟩], [.prop (.specific (.id 1) (.value 6))]⟩] := by
  simp [lSrc, lset, docDecls, bodyDecls, nestName, lRp]

private theorem lSrc_proper : Proper lSrc := by
  simp [lSrc, lset, Proper, BodyProper]

private theorem lSrc_history : DocHistory lSrc [[['a']], [['b']]] := by
  have : (docLayers [] lSrc).filter (fun t => t ≠ []) = [['a'], ['b']] := by
    simp [lSrc, lset, docLayers, bodyLayers, nestName]
  unfold DocHistory
  rw [this]
  exact .cons ⟨by decide, rfl⟩ (.cons ⟨by decide, rfl⟩ .nil)

private theorem lSrc_refs : ∀ r ∈ docDecls lRp [0] [] [] lSrc, ∀ d ∈ r.decls,
    RefsOk (fun _ => none) d := by
  simp [lSrc, lset, docDecls, bodyDecls, RefsOk, resolveRef]

private theorem lSrc_error : HasError lSrc := .later _ (.later _ (.selectors _ _))

/-- `C11_document_order`, `C11_views_exist`: met by the example, and the sheet is built. -/
example : ∃ b sh ms, loadStylesheet lRp [0] .printWarn lSrc = some (some b) ∧
    b.build (fun _ => none) (fun _ _ => true) List.sum .value = some (.ok sh) ∧
    List.Forall₂ (SeenAs List.sum (fun _ => true) (Gives (fun _ => none) .value (fun _ => none)))
      (docDecls lRp [0] [] [] lSrc) ms := by
  obtain ⟨b, h1, h2, h3, _⟩ := C11_document_order (fun _ => none) (fun _ _ => true) List.sum .value
    lRp [0] lSrc lSrc_proper _ lSrc_history .printWarn (by decide)
  obtain ⟨sh, hsh⟩ := h3.mpr (by
    simp [lSrc, lset, docDecls, bodyDecls, DeclOk, resolveRef])
  obtain ⟨⟨ms, hms⟩, _⟩ := C11_views_exist (fun _ => none) List.sum .value lRp [0] lSrc lSrc_proper _
    lSrc_history (fun _ => true) (fun _ => none) lSrc_refs
  exact ⟨b, sh, ms, h1, hsh, hms⟩

/-- `C12_errors_isolated_partial`: the example has errors; loading it strictly fails. -/
example : loadStylesheet lRp [0] .returnError lSrc = some none :=
  (C12_errors_isolated_partial (fun _ => none) (fun _ _ => true) List.sum .value lRp [0] lSrc lSrc_proper _
    lSrc_history lSrc_refs).1.mpr lSrc_error

example : cleanSrc lSrc =
    [.layerBlock [['a']] [.rule (some [[1]]) [lset 0 1, .rule (some [[2]]) [lset 0 2], lset 0 3]],
     .mediaBlock [.viewportWidth (.greaterOrEqual 5)] [.rule (some [[1]])
      [.media [.viewportWidth (.lessOrEqual 9)] [lset 1 4], .layer ['b'] [lset 1 5], lset 1 6]]] := by
  simp [lSrc, lset, cleanSrc, cleanBody]

/-- `C13_conjunction`: a window of width 7 and unknown colour scheme. -/
example : allMatch ⟨none, some 1, some 7, some 0⟩
      [.viewportWidth (.greaterOrEqual 5), .viewportWidth (.lessOrEqual 7)] = true ∧
    allMatch ⟨none, some 1, some 7, some 0⟩ [.viewportWidth (.greaterOrEqual 5), .colorScheme .light] = false ∧
    allMatch ⟨none, some 1, some 7, some 0⟩ [] = true := by
  refine ⟨?_, ?_, rfl⟩
  · rw [C13_conjunction]; simp [Holds, InBounds]
  · rw [Bool.eq_false_iff, ne_eq, C13_conjunction]; simp [Holds]

/-! ## C57 : layer blocks without rules -/

/-- `@layer a {}  @layer b { .1 { p0: 1 } }  @layer a { .1 { p0: 2 } }` -/
private def eSrc : List LSrc :=
  [.layerBlock [['a']] [], .layerBlock [['b']] [.rule (some [[1]]) [lset 0 1]],
   .layerBlock [['a']] [.rule (some [[1]]) [lset 0 2]]]

private theorem twoRules {ds : List Path} {l1 l2 : Path} {v1 v2 : PropertyValue Nat}
    (i : Nat) (lw : Path) (w : PropertyValue Nat)
    (h : i = 0 ∧ lw = l1 ∧ w = v1 ∧ Below ds l2 l1 ∨ i = 1 ∧ lw = l2 ∧ w = v2 ∧ Below ds l1 l2) :
    Cascade ds [⟨[(l1, 1)], [[(0, v1)]]⟩, ⟨[(l2, 1)], [[(0, v2)]]⟩] [] 0 (some w) := by
  refine ⟨⟨.sheet lw 1 i, 0, 0⟩, ?_, ?_⟩
  · rcases h with ⟨rfl, rfl, rfl, _⟩ | ⟨rfl, rfl, rfl, _⟩
    · exact ⟨_, _, rfl, by simp, rfl, rfl⟩
    · exact ⟨_, _, rfl, by simp, rfl, rfl⟩
  · rintro ⟨og, d, b⟩ w' hc
    cases og with
    | inline => obtain ⟨d, hd, _⟩ := hc; simp at hd
    | sheet l s r =>
      obtain ⟨m, dd, h1, h2, h3, h4⟩ := hc
      have hr : r < 2 := by
        have := (List.getElem?_eq_some_iff.mp h1).1
        simpa using this
      have one : ∀ {α} {x : α} {y : α} {n : Nat}, [x][n]? = some y → n = 0 ∧ y = x := by
        intro α x y n hh
        cases n with
        | zero => simp at hh; exact ⟨rfl, hh.symm⟩
        | succ n => simp at hh
      have fin : ∀ {lx : Path} {vx : PropertyValue Nat}, m = ⟨[(lx, 1)], [[(0, vx)]]⟩ →
          l = lx ∧ s = 1 ∧ d = 0 ∧ b = 0 := by
        rintro lx vx rfl
        simp only [List.mem_singleton, Prod.mk.injEq] at h2
        obtain ⟨rfl, rfl⟩ := one h3
        obtain ⟨rfl, _⟩ := one h4
        exact ⟨h2.1, h2.2, rfl, rfl⟩
      obtain rfl | rfl : r = 0 ∨ r = 1 := by omega
      · simp only [List.getElem?_cons_zero, Option.some.injEq] at h1
        obtain ⟨rfl, rfl, rfl, rfl⟩ := fin h1.symm
        rcases h with ⟨rfl, rfl, rfl, hb⟩ | ⟨rfl, rfl, rfl, hb⟩
        · exact Or.inl rfl
        · exact Or.inr (Or.inl hb)
      · simp only [List.getElem?_cons_succ, List.getElem?_cons_zero, Option.some.injEq] at h1
        obtain ⟨rfl, rfl, rfl, rfl⟩ := fin h1.symm
        rcases h with ⟨rfl, rfl, rfl, hb⟩ | ⟨rfl, rfl, rfl, hb⟩
        · exact Or.inr (Or.inl hb)
        · exact Or.inl rfl

/-- C57 is false.  In CSS the source declares `a` before `b` (`CssHistory`), so that `b` wins and the
element gets `p0: 1`; the loaded sheet gives `p0: 2`, since the empty block declares nothing. -/
theorem C57_empty_block_ignored :
    ¬ HasError eSrc ∧ CssHistory eSrc [[['a']], [['b']], [['b']], [['a']], [['a']]] ∧
    ∃ b sh ms out, loadStylesheet lRp [0] .printWarn eSrc = some (some b) ∧
      b.build (fun _ => none) (fun _ _ => true) List.sum .value = some (.ok sh) ∧
      List.Forall₂ (SeenAs List.sum (fun _ => true) (Gives (fun _ => none) .value (fun _ => none)))
        (docDecls lRp [0] [] [] eSrc) ms ∧
      sh.getPropertyValues (fun _ => none) (fun _ => none) (sh.matchingIds (fun _ => true)) none
        (fun _ => .none) = some out ∧
      out 0 = .value 2 ∧
      Cascade [[['a']], [['b']], [['b']], [['a']], [['a']]] ms [] 0 (some (.value 1)) := by
  have hp : Proper eSrc := by simp [eSrc, lset, Proper, BodyProper]
  have hdoc : docDecls lRp [0] [] [] eSrc =
      [⟨[⟨['b'], [], [1]⟩], [.prop (.specific (.id 0) (.value 1))]⟩,
       ⟨[⟨['a'], [], [1]⟩], [.prop (.specific (.id 0) (.value 2))]⟩] := by
    simp [eSrc, lset, docDecls, bodyDecls, nestName]
  have hds : DocHistory eSrc [[['b']], [['a']]] := by
    have : (docLayers [] eSrc).filter (fun t => t ≠ []) = [['b'], ['a']] := by
      simp [eSrc, lset, docLayers, bodyLayers, nestName]
    unfold DocHistory
    rw [this]
    exact .cons ⟨by decide, rfl⟩ (.cons ⟨by decide, rfl⟩ .nil)
  refine ⟨?_, ?_, ?_⟩
  · have hb : ∀ i j : Nat, ¬ BodyError [lset i j] := by
      intro i j h
      unfold lset at h
      cases h with | later _ h => cases h
    intro h
    cases h with
    | layerNames _ _ _ h => simp at h
    | inLayer _ _ h => cases h
    | later _ h =>
      cases h with
      | layerNames _ _ _ h => simp at h
      | inLayer _ _ h =>
        cases h with
        | inBody _ _ h => exact hb _ _ h
        | later _ h => cases h
      | later _ h =>
        cases h with
        | layerNames _ _ _ h => simp at h
        | inLayer _ _ h =>
          cases h with
          | inBody _ _ h => exact hb _ _ h
          | later _ h => cases h
        | later _ h => cases h
  · have : (cssLayers [] eSrc).filter (fun t => t ≠ []) = [['a'], ['b'], ['b'], ['a'], ['a']] := by
      simp [eSrc, lset, cssLayers, bodyLayers, nestName]
    unfold CssHistory
    rw [this]
    exact .cons ⟨by decide, rfl⟩ (.cons ⟨by decide, rfl⟩ (.cons ⟨by decide, rfl⟩
      (.cons ⟨by decide, rfl⟩ (.cons ⟨by decide, rfl⟩ .nil))))
  · obtain ⟨b, h1, h2, h3, h4⟩ := C11_document_order (fun _ => none) (fun _ _ => true) List.sum .value
      lRp [0] eSrc hp _ hds .printWarn (by decide)
    obtain ⟨sh, hsh⟩ := h3.mpr (by rw [hdoc]; simp [DeclOk, resolveRef])
    let ms : List (MRule Nat (PropertyValue Nat)) :=
      [⟨[([['b']], 1)], [[(0, .value 1)]]⟩, ⟨[([['a']], 1)], [[(0, .value 2)]]⟩]
    have hms : List.Forall₂ (SeenAs List.sum (fun _ => true)
        (Gives (fun _ => none) .value (fun _ => none))) (docDecls lRp [0] [] [] eSrc) ms := by
      rw [hdoc]
      have key : ∀ (c : Char) (v : Nat), c ≠ '.' → SeenAs List.sum (fun _ => true)
          (Gives (fun _ => none) .value (fun _ => none))
          (⟨[⟨[c], [], [1]⟩], [.prop (.specific (.id 0) (.value v))]⟩ :
            SrcRule (List Nat) Media.Selector Unit Char Char Nat Unit Unit)
          ⟨[([[c]], 1)], [[(0, .value v)]]⟩ := by
        intro c v hc
        have hwf : Path.WF [[c]] := by
          refine ⟨by simp, ?_⟩
          simp [Ne.symm hc]
        refine ⟨?_, .cons (.value _ _ _ rfl) .nil⟩
        intro p s
        constructor
        · intro h
          simp only [List.mem_singleton, Prod.mk.injEq] at h
          obtain ⟨rfl, rfl⟩ := h
          exact ⟨Or.inr hwf, _, List.mem_singleton.mpr rfl, rfl, rfl, rfl⟩
        · rintro ⟨hp, sel, hsel, _, h1, h2⟩
          simp only [List.mem_singleton] at hsel
          subst hsel
          have : p = [[c]] := dotted_inj' hp (Or.inr hwf) h1.symm
          subst this; subst h2
          simp
      exact .cons (key 'b' 1 (by decide)) (.cons (key 'a' 2 (by decide)) .nil)
    obtain ⟨out, ho, hw⟩ := (h4 sh hsh (fun _ => true) [] none rfl).1 (fun _ => none) ms hms [] .nil
      (fun _ => .none)
    refine ⟨b, sh, ms, out, h1, hsh, hms, ho, ?_, ?_⟩
    · obtain ⟨w, hc, hv⟩ := hw 0
      have := Cascade_unique hc (twoRules 1 [['a']] (.value 2) (Or.inr ⟨rfl, rfl, rfl, Or.inr
        ⟨[], ['b'], ['a'], [], [], rfl, rfl, by decide, [[['b']]], ⟨_, rfl⟩,
          ⟨_, List.mem_singleton.mpr rfl, List.prefix_rfl⟩, by simp⟩⟩))
      rw [hv, this]; rfl
    · exact twoRules 0 [['b']] (.value 1) (Or.inl ⟨rfl, rfl, rfl, Or.inr
        ⟨[], ['a'], ['b'], [], [], rfl, rfl, by decide, [[['a']]], ⟨_, rfl⟩,
          ⟨_, List.mem_singleton.mpr rfl, List.prefix_rfl⟩, by simp⟩⟩)

end Flair.Props
