import Verif.Spec.FileTree
import Verif.Proofs.File2
import Verif.Tactics
/-!
# `@font-face` and `@keyframes` without errors
-/
namespace Flair.Proofs.FileTree
set_option linter.unusedSectionVars false
open Flair.File Flair.Spec Flair.Sheet Flair.Layers Flair.Vars Flair.Values Flair.Loader Flair.SheetTree
open Flair.Proofs.File
open Flair.Calc (Res)
variable {S M C N T V A B : Type} [DecidableEq N] {p : Parsers S M C N T V A B}

theorem fontItem_error (n : Node) : fontItem n = .error ↔ ¬ (familyOf n ≠ none ∨ sourceOf n ≠ none) := by
  have hne : ∀ name : Text, lower name = "font-family".toList → lower name ≠ "src".toList := by
    intro name h; rw [h]; decide
  cases n with
  | declaration name value =>
    unfold fontItem fontProp
    match value with
    | [] => simp [familyOf, sourceOf]
    | [t] =>
      cases t with
      | string s =>
        by_cases ha : lower name = "font-family".toList
        · simp [familyOf, isName, ha]
        · by_cases hb : lower name = "src".toList
          · simp [sourceOf, isName, hb]
          · simp only [familyOf, sourceOf, isName, ha, hb]; simp
      | url s =>
        by_cases hb : lower name = "src".toList
        · simp [sourceOf, isName, hb]
        · simp only [familyOf, sourceOf, isName, hb]; simp
      | _ => simp [familyOf, sourceOf]
    | t :: t2 :: ts => cases t <;> simp [familyOf, sourceOf]
  | _ => simp [fontItem, familyOf, sourceOf]

theorem fontFold_errors : ∀ (block : List Node) (st : Option Text × Option Text × Nat),
    st.2.2 ≤ ((block.map fontItem).foldl fontStep st).2.2 ∧
    (((block.map fontItem).foldl fontStep st).2.2 = st.2.2 ↔ ∀ m ∈ block, familyOf m ≠ none ∨ sourceOf m ≠ none) := by
  intro block
  induction block with
  | nil => intro st; simp
  | cons n block ih =>
    intro st
    rw [List.map_cons, List.foldl_cons]
    obtain ⟨h1, h2⟩ := ih (fontStep st (fontItem n))
    cases hf : fontItem n with
    | error =>
      rw [hf] at h1 h2
      have hb := (fontItem_error n).mp hf
      unfold fontStep at h1 h2
      dsimp only at h1 h2
      refine ⟨by unfold fontStep; dsimp only; omega, ?_⟩
      constructor
      · intro h; unfold fontStep at h; dsimp only at h; omega
      · intro h; exact absurd (h n List.mem_cons_self) hb
    | family s =>
      rw [hf] at h1 h2
      have hb : familyOf n ≠ none ∨ sourceOf n ≠ none := by
        by_contra hc
        rw [(fontItem_error n).mpr hc] at hf; cases hf
      exact ⟨h1, h2.trans ⟨fun h => List.forall_mem_cons.mpr ⟨hb, h⟩, fun h => (List.forall_mem_cons.mp h).2⟩⟩
    | source s =>
      rw [hf] at h1 h2
      have hb : familyOf n ≠ none ∨ sourceOf n ≠ none := by
        by_contra hc
        rw [(fontItem_error n).mpr hc] at hf; cases hf
      exact ⟨h1, h2.trans ⟨fun h => List.forall_mem_cons.mpr ⟨hb, h⟩, fun h => (List.forall_mem_cons.mp h).2⟩⟩

theorem body_clean : ∀ {block : List Node} {os : List (Option (Keyframes.Item (RProp C N T V) A))},
    List.Forall₂ (KeyframeDecl p) block os →
    ((os.filter Option.isNone).length = 0 ↔ ∀ d ∈ block, ∃ it, KeyframeDecl p d (some it)) := by
  intro block os h
  induction h with
  | nil => simp
  | @cons d o block os h1 h2 ih =>
    cases o with
    | none =>
      simp only [List.filter_cons, Option.isNone_none, if_true, List.length_cons, List.forall_mem_cons]
      constructor
      · intro h; omega
      · rintro ⟨⟨it, h⟩, _⟩
        cases keyframeDecl_unique h1 h
    | some it =>
      simp only [List.filter_cons, Option.isNone_some, List.forall_mem_cons]
      exact ih.trans ⟨fun h => ⟨⟨it, h1⟩, h⟩, fun h => h.2⟩

theorem frame_clean {n : Node} {f : Frame S M C N T V A B} {r} (h1 : frameItem p n = some f)
    (h2 : keyframeRule f = some r) : r.2 = 0 ↔ CleanFrame p n := by
  unfold frameItem at h1
  split at h1
  · rename_i lead prelude b
    split at h1
    · rename_i ts hts
      obtain ⟨is, h9, rfl⟩ := Option.map_eq_some_iff.mp h1
      rw [bodyItems_mapM] at h9
      unfold keyframeRule at h2
      simp only at h2
      obtain ⟨os, h10, rfl⟩ := Option.map_eq_some_iff.mp h2
      obtain ⟨os', h11, rfl⟩ := keyframeBody_of h9 h10
      have he : ((os'.map (Option.map (mapItem RProp.toBProp))).filter Option.isNone).length =
          (os'.filter Option.isNone).length := by
        rw [List.filter_map, List.length_map]
        congr 2
        funext o
        cases o <;> rfl
      dsimp only
      rw [he, body_clean h11]
      exact ⟨fun h => ⟨_, _, _, ts, rfl, keyframeTimes_iff.mp hts, h⟩, fun ⟨_, _, _, _, e, _, h⟩ => by cases e; exact h⟩
    · rename_i hts
      cases h1
      cases h2
      refine ⟨fun h => (by cases h), fun ⟨_, _, _, ts, e, h, _⟩ => ?_⟩
      cases e
      rw [keyframeTimes_iff.mpr h] at hts
      cases hts
  · rename_i hn
    cases h1
    cases h2
    refine ⟨fun h => (by cases h), fun ⟨_, _, _, ts, e, h, _⟩ => absurd e (hn _ _ _)⟩

theorem frames_clean : ∀ {block : List Node} {frames : List (Frame S M C N T V A B)} {rs},
    block.mapM (frameItem p) = some frames → frames.mapM keyframeRule = some rs →
    ((rs.map (·.2)).sum = 0 ↔ ∀ m ∈ block, CleanFrame p m) := by
  intro block
  induction block with
  | nil =>
    intro frames rs h1 h2
    cases mapM_nil_some.mp h1
    cases mapM_nil_some.mp h2
    simp
  | cons n block ih =>
    intro frames rs h1 h2
    obtain ⟨f, fs, h3, h4, rfl⟩ := mapM_cons_some.mp h1
    obtain ⟨r, rs2, h5, h6, rfl⟩ := mapM_cons_some.mp h2
    rw [List.map_cons, List.sum_cons, List.forall_mem_cons, ← ih h4 h6, ← frame_clean h3 h5]
    omega

theorem apart_errors (rp : S → List S → S) (amp : S) {imports : Text → Option (FSheet S M C N T V A B)} {d : List Text}
    {n : Node} {i} {st st' : State S M C N T V A B} (h1 : topItem p imports d n = some i)
    (h2 : processTop rp amp st i = some st') (ha : ApartRule n) :
    st'.errors = st.errors ↔ CleanRule p n := by
  have n1 : "font-face".toList ≠ "keyframes".toList := by decide
  cases n with
  | atRule name prelude block =>
    cases block with
    | none => exact absurd ha id
    | some b =>
      unfold CleanRule
      rcases ha with ⟨hf, rfl⟩ | ⟨hk, k, rfl⟩
      · unfold topItem at h1
        simp only [if_pos (isName_iff.mpr hf), Option.some.injEq] at h1
        subst h1
        have hc := (fontFold_errors b (none, none, 0)).2
        unfold fontFaceItem at h2
        split at h2
        · rename_i e
          rw [e] at hc
          cases h2
          dsimp only at hc ⊢
          constructor
          · intro h
            exact ⟨fun _ => hc.mp (by omega), fun h => absurd (hf.symm.trans h) n1⟩
          · intro h
            have := hc.mpr (h.1 hf)
            omega
        · cases h2
      · have hf : isName name "font-face" ≠ true := fun h => n1 ((isName_iff.mp h).symm.trans hk)
        unfold topItem at h1
        simp only [if_neg hf, if_pos (isName_iff.mpr hk), oneIdent] at h1
        unfold keyframesItem at h1
        obtain ⟨frames, h3, h4⟩ := Option.map_eq_some_iff.mp h1
        by_cases hd : k ∈ d
        · rw [if_pos hd] at h4
          subst h4
          cases h2
        · rw [if_neg hd] at h4
          subst h4
          obtain ⟨r, h5, rfl⟩ := Option.map_eq_some_iff.mp h2
          unfold processKeyframes at h5
          obtain ⟨rs, h6, h7⟩ := Option.bind_eq_some_iff.mp h5
          obtain ⟨ks, _, rfl⟩ := Option.map_eq_some_iff.mp h7
          have hc := frames_clean h3 h6
          dsimp only
          constructor
          · intro h
            exact ⟨fun h => absurd (h.symm.trans hk) n1, fun _ => hc.mp (by omega)⟩
          · intro h
            have := hc.mpr (h.2 hk)
            omega
  | _ => exact absurd ha id

end Flair.Proofs.FileTree
