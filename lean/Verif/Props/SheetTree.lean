import Verif.Proofs.SheetTree
import Verif.Props.Loader
/-!
# C101: files that import files
-/
namespace Flair.Props
set_option linter.unusedSectionVars false
open Flair.Spec Flair.Sheet Flair.Layers Flair.Vars Flair.Values Flair.Loader Flair.Media Flair.SheetTree
open Flair.Proofs.SheetTree
variable {S M C N T V X Y : Type} [DecidableEq N] [DecidableEq V]
variable (names : C → Option Nat) (typeOk : Nat → V → Bool) (spec : S → Nat)
  (ph : V → PropertyValue V) (rp : S → List S → S) (amp : S)

/-- C101.  A file that imports files, which import files: loading it never crashes, and it succeeds iff every declaration
of all these files is acceptable and no file that asks for it (`ReturnError`) has an error in itself.  Every element then
gets, for each property, for each variable, and for whatever its transition and animation declarations assign, the winner
of the cascade over the declarations of all the files, one by one in the order in which they would be written if each
`@import` were replaced by the contents of the file, in its layer (`treeDecls`). -/
theorem C101_tree (hph : PhDone ph) (mode : ErrorMode) (parts : List (Part S M C N T V X Y))
    (hp : TreeProper rp amp parts) (ds : List Path) (hds : TreeHistory rp amp parts ds) :
    loadTree names typeOk spec ph rp amp mode parts ≠ none ∧
    ((∃ sh, loadTree names typeOk spec ph rp amp mode parts = some (some sh)) ↔
      (mode = .returnError → ¬ FileError parts) ∧ Tolerated parts ∧
        ∀ r ∈ treeDecls rp amp parts, ∀ d ∈ r.decls, DeclOk names typeOk ph d) ∧
    ∀ sh, loadTree names typeOk spec ph rp amp mode parts = some (some sh) →
      ∀ (isMatch : CssSelector S M → Bool) (inl : List (SrcDecl C N T V X Y))
        (inline : Option (Ruleset (RProp C N T V) N T X Y)) (_ : InlineOf names inl inline),
        (∀ (env : N → Option (VarTokens N T)) (ms : List (MRule Nat (PropertyValue V)))
          (_ : List.Forall₂ (SeenAs spec isMatch (Gives names ph env)) (treeDecls rp amp parts) ms)
          (minl : List (List (Nat × PropertyValue V)))
          (_ : List.Forall₂ (Gives names .value env) inl minl) (init : Nat → PropertyValue V),
          ∃ out, sh.getPropertyValues names env (sh.matchingIds isMatch) inline init = some out ∧
            ∀ p, ∃ w, Cascade ds ms minl p w ∧ out p = w.getD (init p)) ∧
        (∀ (ms : List (MRule N (VarTokens N T)))
          (_ : List.Forall₂ (SeenAs spec isMatch (fun d l => l = givesVars d)) (treeDecls rp amp parts) ms),
          ∃ vars, sh.getVars (sh.matchingIds isMatch) inline = some vars ∧
            ∀ n, Cascade ds ms (inl.map givesVars) n (vars.get? n)) ∧
        (∀ (K W : Type) [DecidableEq K] (eff : X → List (K × W)) (ms : List (MRule K W))
          (_ : List.Forall₂ (SeenAs spec isMatch (fun d l => l = (givesTransitions d).flatMap eff))
            (treeDecls rp amp parts) ms),
          ∃ xs, sh.getTransitions (sh.matchingIds isMatch) inline = some xs ∧
            ∀ k, Cascade ds ms (inl.map fun d => (givesTransitions d).flatMap eff) k (lastWrite (xs.flatMap eff) k)) ∧
        ∀ (K W : Type) [DecidableEq K] (eff : Y → List (K × W)) (ms : List (MRule K W))
          (_ : List.Forall₂ (SeenAs spec isMatch (fun d l => l = (givesAnimations d).flatMap eff))
            (treeDecls rp amp parts) ms),
          ∃ ys, sh.getAnimations (sh.matchingIds isMatch) inline = some ys ∧
            ∀ k, Cascade ds ms (inl.map fun d => (givesAnimations d).flatMap eff) k (lastWrite (ys.flatMap eff) k) := by
  obtain ⟨h1, h2, h3⟩ := tree_facts (names := names) (typeOk := typeOk) hph spec rp amp parts hp ds hds
  have himp : (∀ r ∈ treeDecls rp amp parts, ∀ d ∈ r.decls, DeclOk names typeOk ph d) →
      ∀ r ∈ imported rp amp parts, ∀ d ∈ r.decls, DeclOk names typeOk ph d :=
    fun h r hr => h r (imported_sub rp amp parts r hr)
  unfold loadTree
  cases hx : loadImported names typeOk spec ph rp amp parts with
  | none => exact absurd hx h1
  | some x =>
    cases x with
    | none =>
      refine ⟨by simp, ?_, by simp⟩
      constructor
      · rintro ⟨_, h⟩; cases h
      · rintro ⟨_, t, k⟩
        obtain ⟨s, hs⟩ := h2.mpr ⟨t, himp k⟩
        rw [hx] at hs; cases hs
    | some src =>
      obtain ⟨f1, f2, f3⟩ := finish_facts (h3 src hx) spec mode
      have ht := (h2.mp ⟨src, hx⟩).1
      dsimp only
      refine ⟨f1, f2.trans ⟨fun ⟨a, b⟩ => ⟨a, ht, b⟩, fun ⟨a, _, b⟩ => ⟨a, b⟩⟩, ?_⟩
      intro sh hsh isMatch inl inline hin
      obtain ⟨b, rules, g1, hex, _, hb⟩ := f3 sh hsh
      have hre := g1.re
      have hlay : ∀ r ∈ rules, ∀ s ∈ r.selectors, ∃ p : Path, (p = [] ∨ p.WF) ∧ s.layer = p.dotted := by
        intro r hr s hs
        obtain ⟨i, hi⟩ := List.getElem?_of_mem hr
        obtain ⟨p, hp, e⟩ := hre.lay (s, i) ((hre.sels s i).mpr ⟨r, hi, hs⟩)
        refine ⟨p, ?_, e⟩
        rcases hp with hp | ⟨hp1, d, hd, hpd⟩
        · exact Or.inl hp
        · exact Or.inr ⟨hp1, fun c hc => (hre.wf d hd).2 c (hpd.subset hc)⟩
      refine ⟨?_, ?_, ?_, ?_⟩
      · intro env ms hms minl hminl init
        rw [← hex] at hms
        obtain ⟨ms0, v1, v2⟩ := group_views rules hlay ms hms
        obtain ⟨out, o1, o2⟩ := hre.values hb isMatch env v1 inl hminl inline (by cases inline <;> exact hin) init
        refine ⟨out, o1, fun p => ?_⟩
        obtain ⟨w, c1, c2⟩ := o2 p
        exact ⟨w, cascade_congr v2 (cascade_explode c1), c2⟩
      · intro ms hms
        rw [← hex] at hms
        obtain ⟨ms0, v1, v2⟩ := group_views rules hlay ms hms
        obtain ⟨out, o1, o2⟩ := hre.vars hb isMatch v1 inl inline (by cases inline <;> exact hin)
        exact ⟨out, o1, fun n => cascade_congr v2 (cascade_explode (o2 n))⟩
      · intro K W _ eff ms hms
        rw [← hex] at hms
        obtain ⟨ms0, v1, v2⟩ := group_views rules hlay ms hms
        obtain ⟨out, o1, o2⟩ := hre.transitions hb isMatch eff v1 inl inline (by cases inline <;> exact hin)
        exact ⟨out, o1, fun n => cascade_congr v2 (cascade_explode (o2 n))⟩
      · intro K W _ eff ms hms
        rw [← hex] at hms
        obtain ⟨ms0, v1, v2⟩ := group_views rules hlay ms hms
        obtain ⟨out, o1, o2⟩ := hre.animations hb isMatch eff v1 inl inline (by cases inline <;> exact hin)
        exact ⟨out, o1, fun n => cascade_congr v2 (cascade_explode (o2 n))⟩

/-- the layer of a declaration is mentioned -/
theorem tree_layer (parts : List (Part S M C N T V X Y)) : TreeProper rp amp parts →
    ∀ r ∈ treeDecls rp amp parts, ∀ s ∈ r.selectors, s.layer ∈ treeLayers rp amp parts := by
  induction parts using treeDecls.induct with
  | case1 => intro _ r hr; rw [treeDecls] at hr; cases hr
  | case2 src rest ih =>
    intro hp r hr s hs
    rw [TreeProper] at hp
    rw [treeDecls] at hr
    rw [treeLayers]
    rcases List.mem_append.mp hr with hr | hr
    · refine List.mem_append_left _ ?_
      rw [← explodeR_doc rp amp src [] [] hp.1] at hr
      unfold explodeR at hr
      simp only [List.mem_flatMap, List.mem_map] at hr
      obtain ⟨r0, hr0, d, _, rfl⟩ := hr
      exact doc_names_mem rp amp src [] [] hp.1 _ (layer_mem_names hr0 hs)
    · exact List.mem_append_right _ (ih hp.2 r hr s hs)
  | case3 layer mode parts rest ih1 ih2 =>
    intro hp r hr s hs
    rw [TreeProper] at hp
    rw [treeDecls] at hr
    rw [treeLayers]
    rcases List.mem_append.mp hr with hr | hr
    · refine List.mem_append_left _ ?_
      obtain ⟨r0, hr0, rfl⟩ := List.mem_map.mp hr
      obtain ⟨t, ht, rfl⟩ := List.mem_map.mp hs
      exact List.mem_flatMap.mpr ⟨r0, hr0, List.mem_map.mpr ⟨t, ht, rfl⟩⟩
    · exact List.mem_append_right _ (ih2 hp.2.2.2 r hr s hs)

/-- C101, its hypotheses can be met for every tree of files: the single declarations have a view for every element, when
the names used exist. -/
theorem C101_views_exist (parts : List (Part S M C N T V X Y)) (hp : TreeProper rp amp parts) (ds : List Path)
    (hds : TreeHistory rp amp parts ds) (isMatch : CssSelector S M → Bool) (env : N → Option (VarTokens N T))
    (hrefs : ∀ r ∈ treeDecls rp amp parts, ∀ d ∈ r.decls, RefsOk names d) :
    (∃ ms, List.Forall₂ (SeenAs spec isMatch (Gives names ph env)) (treeDecls rp amp parts) ms) ∧
    ∃ ms : List (MRule N (VarTokens N T)),
      List.Forall₂ (SeenAs spec isMatch (fun d l => l = givesVars d)) (treeDecls rp amp parts) ms := by
  have hl : ∀ r ∈ treeDecls rp amp parts, ∀ s ∈ r.selectors, ∃ p : Path, (p = [] ∨ p.WF) ∧ s.layer = p.dotted := by
    intro r hr s hs
    have hw := (forall2_dotted hds).2
    obtain ⟨p, hp, e⟩ := history_declared hds (tree_layer rp amp parts hp r hr s hs)
    refine ⟨p, ?_, e⟩
    rcases hp with hp | ⟨hp1, d, hd, hpd⟩
    · exact Or.inl hp
    · exact Or.inr ⟨hp1, fun c hc => (hw d hd).2 c (hpd.subset hc)⟩
  constructor
  · exact exists_forall2 fun r hr => exists_seenAs (hl r hr) (fun d hd => exists_gives ph env (hrefs r hr d hd))
  · exact exists_forall2 fun r hr => exists_seenAs (hl r hr) (fun d _ => ⟨givesVars d, rfl⟩)

/-! ## Example -/

/-- `@import` in the layer `p` of a file that declares the layer `q`, has an error, imports a third file, and sets `0` to
`2` in `q`; then `0: 3`, for the selector `1`. -/
private def threeFiles : List (Part Nat Nat Nat Nat Nat Nat Nat Nat) :=
  [.sheet (some ['p']) .printWarn
    [.own [.layerStatement [['q']], .error],
     .sheet none .returnError [.own [.rule (some [1]) [.decls [.prop (.specific (.id 0) (.value 1))]]]],
     .own [.layerBlock [['q']] [.rule (some [1]) [.decls [.prop (.specific (.id 0) (.value 2))]], .rule (some [2]) []]]],
   .own [.rule (some [1]) [.decls [.prop (.specific (.id 0) (.value 3))]]]]

example : TreeProper (fun s _ => s) 0 threeFiles ∧ TreeHistory (fun s _ => s) 0 threeFiles [[['p']], [['p'], ['q']]] ∧
    Tolerated threeFiles ∧
    treeDecls (fun s _ => s) 0 threeFiles = [⟨[⟨['p'], [], 1⟩], [.prop (.specific (.id 0) (.value 1))]⟩,
      ⟨[⟨['p', '.', 'q'], [], 1⟩], [.prop (.specific (.id 0) (.value 2))]⟩, ⟨[⟨[], [], 1⟩], [.prop (.specific (.id 0) (.value 3))]⟩] := by
  refine ⟨?_, ?_, ?_, ?_⟩
  · simp only [threeFiles, TreeProper, TreeHistory, treeLayers, treeDecls, docDecls, bodyDecls, docLayers, bodyLayers, Proper,
      BodyProper]
    refine ⟨by simp, ⟨[[['q']], [['q']], [['q']]], by decide⟩, ⟨by simp, ⟨by simp, ⟨[], by decide⟩, by simp, by simp⟩⟩, by simp⟩
  · simp only [threeFiles, TreeHistory, treeLayers, treeDecls, docDecls, bodyDecls, docLayers, bodyLayers, nestName]
    decide
  · simp only [threeFiles, Tolerated, FileError]
    refine ⟨by simp, ⟨fun _ h => ?_, trivial, trivial⟩, trivial⟩
    rcases h with h | h
    · cases h with
      | inBody _ _ h =>
        cases h with
        | later _ h => cases h
      | later _ h => cases h
    · exact h
  · simp [threeFiles, treeDecls, docDecls, bodyDecls, nestName, inLayer]

end Flair.Props
