import Verif.Props.Sheet
import Verif.Props.AnimProps
/-!
# C68 : `animation-*` and `transition-*` declarations follow the cascade

`X` (`Y`) is the type of transition (animation) declarations as written; `read` says what such a declaration is for
the element at hand, after substituting variables (any function: the substitution is C04, the reading of a shorthand
C61).
-/
namespace Flair.Props
set_option linter.unusedSectionVars false
open Flair.Spec Flair.Sheet Flair.Layers Flair.Vars Flair.Values
variable {S M C N T V X Y : Type} [DecidableEq N] [DecidableEq V]
variable (names : C → Option Nat) (typeOk : Nat → V → Bool) (spec : S → Nat)
  (ph : V → PropertyValue V)

section
open Flair.AnimProps
variable {A E P : Type}

theorem lastWrite_filterMap [DecidableEq P] {W : Type} (f : P → Option W) (ps : List P) (p : P) :
    lastWrite (ps.filterMap fun q => (f q).map fun l => (q, l)) p = if p ∈ ps then f p else none := by
  induction ps using List.reverseRecOn with
  | nil => rfl
  | append_singleton ps q ih =>
    rw [List.filterMap_append, lastWrite_append, ih]
    cases hf : f q with
    | none =>
      simp only [List.filterMap_cons, hf, Option.map_none, List.filterMap_nil, lastWrite_nil, Option.none_or,
        List.mem_append, List.mem_singleton]
      by_cases h : p ∈ ps
      · simp [h]
      · by_cases e : p = q
        · subst e; simp [hf]
        · simp [h, e]
    | some w =>
      simp only [List.filterMap_cons, hf, Option.map_some, List.filterMap_nil, List.mem_append, List.mem_singleton]
      unfold lastWrite
      simp only [List.foldl_cons, List.foldl_nil]
      by_cases e : q = p
      · subst e; simp [hf]
      · have e' : ¬ p = q := fun h => e h.symm
        simp [e, e']

theorem lastWrite_assigns [DecidableEq P] (all : List P) (ha : ∀ p, p ∈ all) (ds : List (AnimProps.Decl P A E)) (p : P) :
    (lastWrite (ds.flatMap (assigns all)) p).getD none = finalList ds p := by
  have h : lastWrite (ds.flatMap (assigns all)) p = (ds.filterMap (effect p)).getLast? := by
    induction ds using List.reverseRecOn with
    | nil => rfl
    | append_singleton ds d ih =>
      rw [List.flatMap_append, lastWrite_append, ih, List.filterMap_append]
      simp only [List.flatMap_cons, List.flatMap_nil, List.append_nil]
      unfold assigns
      rw [lastWrite_filterMap, if_pos (ha p)]
      cases he : effect p d with
      | none => simp [he]
      | some l => simp [he]
  unfold finalList
  rw [h]
end

/-- C68, animations.  For every source whose sheet is built and every element: the declarations gathered from the
matching rules and the inline style resolve without panic, and every `animation-*` longhand ends with the list given
by the winner of the cascade (layer, specificity, rule, declaration; inline last), and none when nothing assigns it.
`all` is any enumeration of the longhands. -/
theorem C68_animations {A E : Type} (read : Y → AnimProps.Decl AnimProps.AId A E)
    (all : List AnimProps.AId) (hall : ∀ p, p ∈ all)
    (is : List (Item S M C N T V X Y)) (ds : List Path) (his : LayerHistory is ds)
    (b : Builder S M C N T V X Y) (hb : (Builder.new : Builder S M C N T V X Y).addItems is = some b)
    (sh : StyleSheet S M C N T V X Y) (hsh : b.build names typeOk spec ph = some (.ok sh))
    (isMatch : CssSelector S M → Bool) (inl : List (SrcDecl C N T V X Y))
    (inline : Option (Ruleset (RProp C N T V) N T X Y)) (hin : InlineOf names inl inline) :
    ∃ ys o ms, sh.getAnimations (sh.matchingIds isMatch) inline = some ys ∧
      AnimProps.resolveToOutput AnimProps.resetA (ys.map read) = some o ∧
      List.Forall₂ (SeenAs spec isMatch fun d l =>
        l = (givesAnimations d).flatMap fun y => assigns all (read y)) (rulesOf is) ms ∧
      ∀ p, ∃ w, Cascade ds ms
          (inl.map fun d => (givesAnimations d).flatMap fun y => assigns all (read y)) p w ∧
        o p = w.getD none := by
  obtain ⟨b', hb', hr⟩ := realises_source names ph his
  rw [hb] at hb'; cases hb'
  obtain ⟨ms, hms⟩ := exists_views (gives := fun (d : SrcDecl C N T V X Y) l =>
      l = (givesAnimations d).flatMap fun y => assigns all (read y)) spec isMatch his
    (fun r hr d hd => ⟨_, rfl⟩)
  obtain ⟨ys, hys, hc⟩ := hr.animations hsh isMatch (fun y => assigns all (read y)) hms inl inline
    (by cases inline <;> exact hin)
  refine ⟨ys, _, ms, hys, C38_animation _, hms, fun p => ⟨_, hc p, ?_⟩⟩
  rw [← lastWrite_assigns all hall, List.flatMap_map]

/-- C68, transitions: the same for the `transition-*` longhands. -/
theorem C68_transitions {A E : Type} (read : X → AnimProps.Decl AnimProps.TId A E)
    (all : List AnimProps.TId) (hall : ∀ p, p ∈ all)
    (is : List (Item S M C N T V X Y)) (ds : List Path) (his : LayerHistory is ds)
    (b : Builder S M C N T V X Y) (hb : (Builder.new : Builder S M C N T V X Y).addItems is = some b)
    (sh : StyleSheet S M C N T V X Y) (hsh : b.build names typeOk spec ph = some (.ok sh))
    (isMatch : CssSelector S M → Bool) (inl : List (SrcDecl C N T V X Y))
    (inline : Option (Ruleset (RProp C N T V) N T X Y)) (hin : InlineOf names inl inline) :
    ∃ xs o ms, sh.getTransitions (sh.matchingIds isMatch) inline = some xs ∧
      AnimProps.resolveToOutput AnimProps.resetT (xs.map read) = some o ∧
      List.Forall₂ (SeenAs spec isMatch fun d l =>
        l = (givesTransitions d).flatMap fun x => assigns all (read x)) (rulesOf is) ms ∧
      ∀ p, ∃ w, Cascade ds ms
          (inl.map fun d => (givesTransitions d).flatMap fun x => assigns all (read x)) p w ∧
        o p = w.getD none := by
  obtain ⟨b', hb', hr⟩ := realises_source names ph his
  rw [hb] at hb'; cases hb'
  obtain ⟨ms, hms⟩ := exists_views (gives := fun (d : SrcDecl C N T V X Y) l =>
      l = (givesTransitions d).flatMap fun x => assigns all (read x)) spec isMatch his
    (fun r hr d hd => ⟨_, rfl⟩)
  obtain ⟨xs, hxs, hc⟩ := hr.transitions hsh isMatch (fun x => assigns all (read x)) hms inl inline
    (by cases inline <;> exact hin)
  refine ⟨xs, _, ms, hxs, C38_transition _, hms, fun p => ⟨_, hc p, ?_⟩⟩
  rw [← lastWrite_assigns all hall, List.flatMap_map]

/-- `C68_animations`: `@layer a { animation-name: "x" }  e { animation: "y" }` – two rules, an existing history, and
an element both rules match. -/
example :
    let src : List (Item Nat Unit Unit Char Char Nat Unit (AnimProps.Decl AnimProps.AId Char Unit)) :=
      [.rule ⟨[⟨['a'], [], 3⟩], [.animation (.single .name (some [.name 'x']))]⟩,
       .rule ⟨[⟨[], [], 1⟩], [.animation (.shorthand (some [[(.name, .name 'y')]]))]⟩]
    LayerHistory src [[['a']]] ∧
    ∃ b sh, (Builder.new : Builder Nat Unit Unit Char Char Nat Unit _).addItems src = some b ∧
      b.build (fun _ => none) (fun _ _ => true) id .value = some (.ok sh) := by
  have hh : LayerHistory ([.rule ⟨[⟨['a'], [], 3⟩], [.animation (.single .name (some [.name 'x']))]⟩,
       .rule ⟨[⟨[], [], 1⟩], [.animation (.shorthand (some [[(.name, .name 'y')]]))]⟩] :
       List (Item Nat Unit Unit Char Char Nat Unit (AnimProps.Decl AnimProps.AId Char Unit))) [[['a']]] := by
    unfold LayerHistory
    show List.Forall₂ _ [['a']] _
    exact .cons ⟨by decide, rfl⟩ .nil
  refine ⟨hh, ?_⟩
  obtain ⟨b, hb, hr⟩ := realises_source (fun _ => none) PropertyValue.value hh
  have : ∃ sh, b.build (fun _ => none) (fun _ _ => true) id .value = some (.ok sh) := by
    rw [hr.ok_iff]
    refine ⟨by simp [rulesOf], [[], []], ?_, by simp⟩
    rw [addItems_eq] at hb
    simp only [Option.map_eq_some_iff] at hb
    obtain ⟨_, _, rfl⟩ := hb
    exact .cons rfl (.cons rfl .nil)
  obtain ⟨sh, hsh⟩ := this
  exact ⟨b, sh, hb, hsh⟩
end Flair.Props
