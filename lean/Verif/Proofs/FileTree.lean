import Verif.Spec.FileTree
import Verif.Proofs.File2
import Verif.Proofs.FileClean
import Verif.Proofs.SheetTree
import Verif.Tactics
/-!
# The files on a disk and the tree of their imports
-/
namespace Flair.Proofs.FileTree
set_option linter.unusedSectionVars false
open Flair.File Flair.Spec Flair.Sheet Flair.Layers Flair.Vars Flair.Values Flair.Loader Flair.SheetTree
open Flair.Proofs.File
open Flair.Calc (Res)
open Flair.AnimProps (AId TId)
variable {S M C N T V A B : Type} [DecidableEq N] {p : Parsers S M C N T V A B}

theorem prefixEq_iff {s : Text} {pre : String} (ha : ∀ d ∈ pre.toList, d.toNat < 128) {b : Bool}
    (h : prefixEq s pre = some b) : b = true ↔ pre.toList <+: lower s := by
  constructor
  · rintro rfl; exact prefixEq_true h
  · intro h2
    have := prefixEq_of ha h2
    rw [h] at this
    exact Option.some.inj this

theorem lookup_transition (name : Text) : lookupName transitionNames name = transitionProperty name := by
  unfold lookupName transitionNames transitionProperty isName
  simp only [List.find?]
  split_ifs <;> simp_all

theorem lookup_animation (name : Text) : lookupName animationNames name = animationProperty name := by
  unfold lookupName animationNames animationProperty isName
  simp only [List.find?]
  split_ifs <;> simp_all

theorem declItem_eq {name : Text} {value : List Tok} {i : FBody S M C N T V A B}
    (h : declItem p ruleFlags name value = some i) : i = readDecl p name value := by
  unfold declItem at h
  have hk : ∃ k, kindOf ruleFlags name = some k := by
    cases hk : kindOf ruleFlags name with
    | none => simp [parseValue, hk] at h
    | some k => exact ⟨k, rfl⟩
  obtain ⟨k, hk⟩ := hk
  have hv : parseValue p ruleFlags name value = parseAs p name value k := by simp [parseValue, hk]
  rw [hv] at h
  unfold readDecl
  unfold kindOf at hk
  split
  · rename_i rest
    have : k = .custom := by simpa [ruleFlags, eq_comm] using hk
    subst this
    unfold parseAs at h
    cases hc : p.custom value with
    | none =>
      simp only [hc] at h ⊢
      split at h
      · cases h
      · exact (Option.some.inj h).symm
    | some t =>
      simp only [hc] at h ⊢
      exact (Option.some.inj h).symm
  · rename_i hn
    rw [if_neg (by
      intro h2
      simp only [Bool.and_eq_true, decide_eq_true_eq] at h2
      obtain ⟨r, hr⟩ := take_two h2.2
      exact hn r hr)] at hk
    unfold transitionKind at hk
    rw [if_pos (show ruleFlags.transition = true from rfl)] at hk
    obtain ⟨b, hb, hk⟩ := Option.bind_eq_some_iff.mp hk
    have hb := prefixEq_iff (by decide) hb
    by_cases ht : "transition".toList <+: lower name
    · rw [if_pos ht]
      rw [if_pos (hb.mpr ht)] at hk
      cases hk
      unfold parseAs parseTransition at h
      rw [lookup_transition] at h
      cases hl : transitionProperty name with
      | none =>
        simp only [hl] at h ⊢
        split at h
        · cases h
        · exact (Option.some.inj h).symm
      | some id =>
        simp only [hl] at h ⊢
        unfold declared
        cases hr : p.transition id value with
        | ok x => simp only [hr, Res.bind] at h ⊢; exact (Option.some.inj h).symm
        | err =>
          simp only [hr, Res.bind] at h ⊢
          split at h
          · cases h
          · exact (Option.some.inj h).symm
        | panic => simp only [hr, Res.bind] at h; cases h
    · rw [if_neg ht]
      rw [if_neg (fun x => ht (hb.mp x))] at hk
      unfold animationKind at hk
      rw [if_pos (show ruleFlags.allAnimation = true from rfl)] at hk
      obtain ⟨c, hc, hk⟩ := Option.map_eq_some_iff.mp hk
      have hc := prefixEq_iff (by decide) hc
      by_cases ha : "animation".toList <+: lower name
      · rw [if_pos ha]
        rw [if_pos (hc.mpr ha)] at hk
        subst hk
        unfold parseAs parseAnimation at h
        rw [lookup_animation] at h
        cases hl : animationProperty name with
        | none =>
          simp only [hl] at h ⊢
          split at h
          · cases h
          · exact (Option.some.inj h).symm
        | some id =>
          simp only [hl] at h ⊢
          unfold declared
          cases hr : p.animation id value with
          | ok x => simp only [hr, Res.bind] at h ⊢; exact (Option.some.inj h).symm
          | err =>
            simp only [hr, Res.bind] at h ⊢
            split at h
            · cases h
            · exact (Option.some.inj h).symm
          | panic => simp only [hr, Res.bind] at h; cases h
      · rw [if_neg ha]
        rw [if_neg (fun x => ha (hc.mp x))] at hk
        subst hk
        unfold parseAs at h
        unfold declared
        cases hr : p.property name value with
        | ok x => simp only [hr, Res.bind] at h ⊢; exact (Option.some.inj h).symm
        | err =>
          simp only [hr, Res.bind] at h ⊢
          split at h
          · cases h
          · exact (Option.some.inj h).symm
        | panic => simp only [hr, Res.bind] at h; cases h

theorem isName_eq (name : Text) (s : String) : isName name s = decide (lower name = s.toList) := rfl

theorem oneName_eq (ts : List Tok) : oneIdent ts = oneName ts := by
  unfold oneName
  split
  · rfl
  · rename_i h
    cases ho : oneIdent ts with
    | none => rfl
    | some l => exact absurd (oneIdent_iff.mp ho) (h l)

mutual
theorem bodyItem_eq : ∀ (n : Node) {i : FBody S M C N T V A B}, bodyItem p ruleFlags n = some i → i = readItem p n
  | .declaration name value, i, h => by
    rw [bodyItem] at h
    rw [readItem]
    exact declItem_eq h
  | .qualified lead prelude block, i, h => by
    rw [bodyItem, if_pos (show ruleFlags.nested = true from rfl)] at h
    split at h
    · obtain ⟨is, h1, rfl⟩ := Option.map_eq_some_iff.mp h
      rw [readItem, bodyItems_eq block h1]
    · cases h
  | .atRule name prelude none, i, h => by
    rw [bodyItem] at h
    rw [readItem]
    exact (Option.some.inj h).symm
  | .atRule name prelude (some block), i, h => by
    rw [bodyItem, if_pos (show ruleFlags.nested = true from rfl)] at h
    unfold nestedBlock at h
    simp only [isName_eq, decide_eq_true_eq] at h
    rw [readItem]
    split
    · rename_i hm
      rw [if_pos hm] at h
      cases hp : p.media prelude with
      | none => simp only [hp] at h; exact (Option.some.inj h).symm
      | some conds =>
        simp only [hp] at h
        obtain ⟨is, h1, rfl⟩ := Option.map_eq_some_iff.mp h
        rw [bodyItems_eq block h1]
    · rename_i hm
      rw [if_neg hm] at h
      split
      · rename_i hl
        rw [if_pos hl] at h
        rw [← oneName_eq]
        cases ho : oneIdent prelude with
        | none => simp only [ho] at h; exact (Option.some.inj h).symm
        | some l =>
          simp only [ho] at h
          obtain ⟨is, h1, rfl⟩ := Option.map_eq_some_iff.mp h
          rw [bodyItems_eq block h1]
      · rename_i hl
        rw [if_neg hl] at h
        exact (Option.some.inj h).symm
  | .bad, i, h => by
    rw [bodyItem] at h
    rw [readItem]
    exact (Option.some.inj h).symm
theorem bodyItems_eq : ∀ (ns : List Node) {is : List (FBody S M C N T V A B)}, bodyItems p ruleFlags ns = some is →
    is = readBody p ns
  | [], is, h => by
    rw [bodyItems] at h
    rw [readBody]
    exact (Option.some.inj h).symm
  | n :: ns, is, h => by
    rw [bodyItems] at h
    obtain ⟨i, h1, h2⟩ := Option.bind_eq_some_iff.mp h
    obtain ⟨is', h3, rfl⟩ := Option.map_eq_some_iff.mp h2
    rw [readBody, bodyItem_eq n h1, bodyItems_eq ns h3]
end

theorem layerNames_eq : ∀ ts : List Tok, File.layerNames ts = commaNames ts := by
  intro ts
  unfold File.layerNames
  induction ts using commaNames.induct with
  | case1 a => simp [segments, oneIdent, commaNames]
  | case2 a rest ih =>
    rw [commaNames, ← ih]
    simp only [segments]
    cases hs : segments rest with
    | nil => exact absurd hs (segments_ne rest)
    | cons s ss =>
      rw [List.mapM_cons]
      have : oneIdent [.ident a] = some a := rfl
      rw [this]
      cases (s :: ss).mapM oneIdent <;> rfl
  | case3 ts h1 h2 =>
    rw [commaNames.eq_3 ts h1 h2]
    cases ts with
    | nil => simp [segments, oneIdent]
    | cons t ts =>
      by_cases ht : t = .comma
      · subst ht
        simp [segments, oneIdent]
      · cases hs : segments ts with
        | nil => exact absurd hs (segments_ne ts)
        | cons s ss =>
          rw [segments_cons ht ts hs, List.mapM_cons]
          have : oneIdent (t :: s) = none := by
            cases ho : oneIdent (t :: s) with
            | none => rfl
            | some a =>
              exfalso
              have := oneIdent_iff.mp ho
              injection this with e1 e2
              subst e1 e2
              rcases segments_nil hs with ⟨h, _⟩ | ⟨r, h, _⟩
              · exact h1 a (by rw [h])
              · exact h2 a r (by rw [h])
          rw [this]
          rfl

theorem oneName_iff {ts : List Tok} {l : Text} : oneName ts = some l ↔ ts = [.ident l] := by
  rw [← oneName_eq, oneIdent_iff]

theorem commaNames_ne {ts : List Tok} : commaNames ts ≠ some [] := by
  unfold commaNames
  split
  · simp
  · rename_i a rest
    cases commaNames rest <;> simp
  · simp

theorem commaNames_one {ts : List Tok} {l : Text} (h : commaNames ts = some [l]) : oneName ts = some l := by
  unfold commaNames at h
  split at h
  · simpa [oneName] using h
  · rename_i a rest
    cases hc : commaNames rest with
    | none => rw [hc] at h; cases h
    | some x =>
      rw [hc] at h
      simp only [Option.map_some, Option.some.injEq, List.cons.injEq] at h
      rw [h.2] at hc
      exact absurd hc commaNames_ne
  · cases h

mutual
theorem ruleItem_eq : ∀ (n : Node) {s : FSrc S M C N T V A B}, ruleItem p n = some s → s = readRule p n
  | .declaration name value, s, h => by
    rw [ruleItem] at h
    · rw [readRule]
      exact (Option.some.inj h).symm
    all_goals (intros; rename_i e; cases e)
  | .qualified lead prelude block, s, h => by
    rw [ruleItem] at h
    obtain ⟨is, h1, rfl⟩ := Option.map_eq_some_iff.mp h
    rw [readRule, bodyItems_eq block h1]
  | .atRule name prelude none, s, h => by
    rw [ruleItem] at h
    have h := (Option.some.inj h).symm
    subst h
    unfold atStatement
    simp only [isName_eq, decide_eq_true_eq, layerNames_eq]
    rw [readRule]
    rfl
  | .atRule name prelude (some block), s, h => by
    rw [ruleItem] at h
    unfold atBlock at h
    simp only [isName_eq, decide_eq_true_eq] at h
    rw [readRule]
    split
    · rename_i hm
      rw [if_pos hm] at h
      cases hp : p.media prelude with
      | none => simp only [hp] at h; exact (Option.some.inj h).symm
      | some conds =>
        simp only [hp] at h
        obtain ⟨is, h1, rfl⟩ := Option.map_eq_some_iff.mp h
        rw [ruleItems_eq block h1]
    · rename_i hm
      rw [if_neg hm] at h
      split
      · rename_i hl
        rw [if_pos hl, layerNames_eq] at h
        cases ho : oneName prelude with
        | some l =>
          rw [oneName_iff] at ho
          subst ho
          simp only [commaNames] at h
          obtain ⟨is, h1, rfl⟩ := Option.map_eq_some_iff.mp h
          rw [ruleItems_eq block h1]
        | none =>
          split at h
          · rename_i l hl
            rw [commaNames_one hl] at ho
            cases ho
          · exact (Option.some.inj h).symm
      · rename_i hl
        rw [if_neg hl] at h
        exact (Option.some.inj h).symm
  | .bad, s, h => by
    rw [ruleItem] at h
    · rw [readRule]
      exact (Option.some.inj h).symm
    all_goals (intros; rename_i e; cases e)
theorem ruleItems_eq : ∀ (ns : List Node) {is : List (FSrc S M C N T V A B)}, ruleItems p ns = some is →
    is = readRules p ns
  | [], is, h => by
    rw [ruleItems] at h
    rw [readRules]
    exact (Option.some.inj h).symm
  | n :: ns, is, h => by
    rw [ruleItems] at h
    obtain ⟨i, h1, h2⟩ := Option.bind_eq_some_iff.mp h
    obtain ⟨is', h3, rfl⟩ := Option.map_eq_some_iff.mp h2
    rw [readRules, ruleItem_eq n h1, ruleItems_eq ns h3]
end

/-! ## the top level -/

theorem importsAs_iff {n : Node} {u : Text} {l : Option Text} :
    ImportsAs n u l ↔ ∃ name prelude, n = .atRule name prelude none ∧ lower name = "import".toList ∧
      importPrelude prelude = some (u, l) := by
  constructor
  · intro h
    cases h with
    | plain name t u hn ht =>
      refine ⟨_, _, rfl, hn, ?_⟩
      rcases ht with rfl | rfl <;> rfl
    | layer name t u f l hn ht hf =>
      refine ⟨_, _, rfl, hn, ?_⟩
      rcases ht with rfl | rfl <;> simp [importPrelude, isName_iff.mpr hf, oneIdent]
  · rintro ⟨name, prelude, rfl, hn, h1⟩
    unfold importPrelude at h1
    split at h1
    · cases h1; exact .plain _ _ _ hn (Or.inl rfl)
    · cases h1; exact .plain _ _ _ hn (Or.inr rfl)
    · split at h1
      · rename_i hf
        obtain ⟨l', h2, h3⟩ := Option.map_eq_some_iff.mp h1
        cases h3
        rw [oneIdent_iff] at h2
        subst h2
        exact .layer _ _ _ _ _ hn (Or.inl rfl) (isName_iff.mp hf)
      · cases h1
    · split at h1
      · rename_i hf
        obtain ⟨l', h2, h3⟩ := Option.map_eq_some_iff.mp h1
        cases h3
        rw [oneIdent_iff] at h2
        subst h2
        exact .layer _ _ _ _ _ hn (Or.inr rfl) (isName_iff.mp hf)
      · cases h1
    · cases h1

theorem importsAs_rule {n : Node} {u : Text} {l : Option Text} (h : ImportsAs n u l) : ImportRule n u := by
  cases h with
  | plain name t u hn ht => exact .plain _ _ _ hn ht
  | layer name t u f l hn ht hf => exact .layer _ _ _ _ _ hn ht hf

theorem importsAs_unique {n : Node} {u u' : Text} {l l' : Option Text} (h : ImportsAs n u l) (h' : ImportsAs n u' l') :
    u = u' ∧ l = l' := by
  obtain ⟨a, b, rfl, _, h1⟩ := importsAs_iff.mp h
  obtain ⟨a', b', e, _, h2⟩ := importsAs_iff.mp h'
  cases e
  rw [h1] at h2
  cases h2
  exact ⟨rfl, rfl⟩

theorem apart_import {n : Node} {u : Text} {l : Option Text} (h : ImportsAs n u l) : ¬ ApartRule n := by
  obtain ⟨a, b, rfl, _, _⟩ := importsAs_iff.mp h
  exact id

/-- at-rules with other names are errors in `readRule` -/
theorem readRule_error {name : Text} {prelude : List Tok} {block : Option (List Node)}
    (h1 : lower name ≠ "media".toList) (h2 : lower name ≠ "layer".toList) :
    readRule p (.atRule name prelude block) = .error := by
  cases block with
  | none => rw [readRule, if_neg h2]
  | some b => rw [readRule, if_neg h1, if_neg h2]

theorem apart_keyframes {name : Text} {prelude : List Tok} {block : Option (List Node)}
    (h : ApartRule (.atRule name prelude block)) (hf : lower name ≠ "font-face".toList) :
    ∃ k b, prelude = [.ident k] ∧ block = some b := by
  cases block with
  | none => exact absurd h id
  | some b =>
    rcases h with ⟨h, _⟩ | ⟨_, k, h⟩
    · exact absurd h hf
    · exact ⟨k, b, h, rfl⟩

theorem top_step (rp : S → List S → S) (amp : S) {imports : Text → Option (FSheet S M C N T V A B)} {d : List Text}
    {n : Node} {i} {st st' : State S M C N T V A B} (h1 : topItem p imports d n = some i)
    (h2 : processTop rp amp st i = some st') :
    (ApartRule n ∧ st'.base = st.base ∧ st.errors ≤ st'.errors) ∨
    (∃ u l o, ImportsAs n u l ∧ imports u = some o ∧ st.base.embed o.base l = some st'.base ∧ st'.errors = st.errors) ∨
    ((∀ u l, ¬ ImportsAs n u l) ∧ ¬ ApartRule n ∧
      process rp (parseItem amp ⟨[], []⟩ (readRule p n)) (st.base, st.errors) = some (st'.base, st'.errors)) := by
  have herr : i = .error → readRule p n = .error →
      process rp (parseItem amp ⟨[], []⟩ (readRule p n)) (st.base, st.errors) = some (st'.base, st'.errors) := by
    rintro rfl e
    cases h2
    rw [e, parseItem, process]
  have hsrc : ∀ s, i = .src s → s = readRule p n →
      process rp (parseItem amp ⟨[], []⟩ (readRule p n)) (st.base, st.errors) = some (st'.base, st'.errors) := by
    rintro s rfl rfl
    obtain ⟨x, hx, rfl⟩ := Option.map_eq_some_iff.mp h2
    exact hx
  have hne : "font-face".toList ≠ "keyframes".toList ∧ "font-face".toList ≠ "import".toList ∧
      "keyframes".toList ≠ "import".toList ∧ "font-face".toList ≠ "media".toList ∧ "font-face".toList ≠ "layer".toList ∧
      "keyframes".toList ≠ "media".toList ∧ "keyframes".toList ≠ "layer".toList ∧
      "import".toList ≠ "media".toList ∧ "import".toList ≠ "layer".toList := by decide
  obtain ⟨n1, n2, n3, n4, n5, n6, n7, n8, n9⟩ := hne
  unfold topItem at h1
  split at h1
  · rename_i name prelude block
    split at h1
    · rename_i hf
      have hf' := isName_iff.mp hf
      have hi : ∀ u l, ¬ ImportsAs (.atRule name prelude block) u l := by
        intro u l h
        exact n2 (hf'.symm.trans (importRule_name (importsAs_rule h)))
      split at h1
      · rename_i b
        cases h1
        refine Or.inl ⟨Or.inl ⟨hf', rfl⟩, ?_⟩
        unfold fontFaceItem at h2
        split at h2
        · cases h2
          exact ⟨rfl, Nat.le_add_right _ _⟩
        · cases h2
      · rename_i hno
        cases h1
        refine Or.inr (Or.inr ⟨hi, ?_, herr rfl (readRule_error (by rw [hf']; exact n4) (by rw [hf']; exact n5))⟩)
        intro h
        cases block with
        | none => exact h
        | some b =>
          rcases h with ⟨_, h⟩ | ⟨h, _⟩
          · exact hno b h rfl
          · exact n1 (hf'.symm.trans h)
    · rename_i hf
      have hf' : lower name ≠ "font-face".toList := fun h => hf (isName_iff.mpr h)
      split at h1
      · rename_i hk
        have hk' := isName_iff.mp hk
        have hi : ∀ u l, ¬ ImportsAs (.atRule name prelude block) u l := by
          intro u l h
          exact n3 (hk'.symm.trans (importRule_name (importsAs_rule h)))
        split at h1
        · rename_i k b hpre
          refine Or.inl ⟨Or.inr ⟨hk', k, oneIdent_iff.mp hpre⟩, ?_⟩
          unfold keyframesItem at h1
          obtain ⟨frames, h3, h4⟩ := Option.map_eq_some_iff.mp h1
          by_cases hd : k ∈ d
          · rw [if_pos hd] at h4
            subst h4
            cases h2
          · rw [if_neg hd] at h4
            subst h4
            obtain ⟨r, h5, rfl⟩ := Option.map_eq_some_iff.mp h2
            exact ⟨rfl, Nat.le_add_right _ _⟩
        · rename_i hno
          cases h1
          refine Or.inr (Or.inr ⟨hi, ?_, herr rfl (readRule_error (by rw [hk']; exact n6) (by rw [hk']; exact n7))⟩)
          intro h
          obtain ⟨k, b, e1, e2⟩ := apart_keyframes h hf'
          exact hno k b (by rw [e1]; rfl) e2
      · rename_i hk
        have hap : ¬ ApartRule (.atRule name prelude block) := by
          intro h
          cases block with
          | none => exact h
          | some b =>
            rcases h with ⟨h, _⟩ | ⟨h, _⟩
            · exact hf' h
            · exact hk (isName_iff.mpr h)
        split at h1
        · rename_i hi
          have hi' := isName_iff.mp hi
          split at h1
          · rename_i u l hpre
            unfold importItem at h1
            obtain ⟨o, h3, rfl⟩ := Option.map_eq_some_iff.mp h1
            obtain ⟨y, h4, rfl⟩ := Option.map_eq_some_iff.mp h2
            obtain ⟨x, h5, rfl⟩ := Option.map_eq_some_iff.mp h4
            rw [process] at h5
            obtain ⟨b', h6, rfl⟩ := Option.map_eq_some_iff.mp h5
            exact Or.inr (Or.inl ⟨u, l, o, importsAs_iff.mpr ⟨_, _, rfl, hi', hpre⟩, h3, h6, rfl⟩)
          · rename_i hno
            cases h1
            refine Or.inr (Or.inr ⟨?_, hap, herr rfl (readRule_error (by rw [hi']; exact n8) (by rw [hi']; exact n9))⟩)
            intro u l h
            obtain ⟨_, _, e, _, h4⟩ := importsAs_iff.mp h
            cases e
            exact hno u l h4 rfl
        · rename_i hi
          obtain ⟨s, h3, h4⟩ := Option.map_eq_some_iff.mp h1
          refine Or.inr (Or.inr ⟨?_, hap, hsrc s h4.symm (ruleItem_eq _ h3)⟩)
          intro u l h
          exact hi (isName_iff.mpr (importRule_name (importsAs_rule h)))
  · rename_i hn
    obtain ⟨s, h3, h4⟩ := Option.map_eq_some_iff.mp h1
    refine Or.inr (Or.inr ⟨?_, ?_, hsrc s h4.symm (ruleItem_eq _ h3)⟩)
    · intro u l h
      obtain ⟨_, _, e, _, _⟩ := importsAs_iff.mp h
      exact hn _ _ _ e
    · intro h
      cases n with
      | atRule a b c => exact hn _ _ _ rfl
      | _ => exact h

mutual
theorem noEmbed_rule (amp : S) : ∀ (n : Node) (ctx : Context M), noEmbed [parseItem amp ctx (readRule p n)]
  | .declaration _ _, ctx => by rw [readRule, parseItem]; simp [noEmbed]
  | .bad, ctx => by rw [readRule, parseItem]; simp [noEmbed]
  | .qualified _ _ _, ctx => by rw [readRule, parseItem]; simp [noEmbed]
  | .atRule name prelude none, ctx => by
    rw [readRule]
    split
    · split <;> (rw [parseItem]; simp [noEmbed])
    · rw [parseItem]; simp [noEmbed]
  | .atRule name prelude (some b), ctx => by
    rw [readRule]
    split
    · split
      · rw [parseItem]; simpa only [noEmbed, and_true] using noEmbed_rules amp b _
      · rw [parseItem]; simp [noEmbed]
    · split
      · split
        · rw [parseItem]; simpa only [noEmbed, and_true] using noEmbed_rules amp b _
        · rw [parseItem]; simp [noEmbed]
      · rw [parseItem]; simp [noEmbed]
theorem noEmbed_rules (amp : S) : ∀ (ns : List Node) (ctx : Context M), noEmbed (parseItems amp ctx (readRules p ns))
  | [], ctx => by rw [readRules, parseItems]; simp [noEmbed]
  | n :: ns, ctx => by
    rw [readRules, parseItems]
    have h1 := noEmbed_rule amp n ctx
    have h2 := noEmbed_rules amp ns ctx
    cases hi : parseItem amp ctx (readRule p n) with
    | embed o l => rw [hi] at h1; simp [noEmbed] at h1
    | inner is => rw [hi] at h1; simp only [noEmbed, and_true] at h1 ⊢; exact ⟨h1, h2⟩
    | layers ls => simpa only [noEmbed] using h2
    | rule a b => simpa only [noEmbed] using h2
    | error => simpa only [noEmbed] using h2
end

theorem process_shift (rp : S → List S → S) {i : SheetItem S M C N T V (TDecl B) (ADecl A)} (hi : noEmbed [i])
    {b b' : Builder S M C N T V (TDecl B) (ADecl A)} {e e' : Nat} (h : process rp i (b, e) = some (b', e')) {e0 : Nat} (he : e0 ≤ e) :
    ∃ e1, e1 ≤ e' ∧ process rp i (b, e0) = some (b', e1) := by
  have hp : ∀ st, process rp i st = processAll rp [i] st := by
    intro st
    rw [processAll]
    cases process rp i st with
    | none => rfl
    | some x => simp [processAll]
  rw [hp, processAll_eq rp _ hi] at h
  obtain ⟨x, hx, e⟩ := Option.map_eq_some_iff.mp h
  cases e
  refine ⟨e0 + errors [i], by omega, ?_⟩
  rw [hp, processAll_eq rp _ hi, hx]
  rfl

theorem tree_fold (rp : S → List S → S) (amp : S) (env : BuildEnv S C V) (mode : Text → ErrorMode)
    (disk : Text → Option (List Node)) {imports : Text → Option (FSheet S M C N T V A B)}
    (himp : ∀ u o, imports u = some o → ∃ parts, FileTree p mode disk u parts ∧
      loadTree env.names env.typeOk env.spec env.ph rp amp (mode u) parts = some (some o.base)) :
    ∀ (ns : List Node) (d : List Text) (is) (st st' : State S M C N T V A B),
    topItems p imports d ns = some is → is.foldlM (processTop rp amp) st = some st' →
    ∃ parts src, NodesTree p mode disk ns parts ∧
      loadImported env.names env.typeOk env.spec env.ph rp amp parts = some (some src) ∧
      ∀ e, e ≤ st.errors → ∃ e', e' ≤ st'.errors ∧
        processAll rp (parseItems amp ⟨[], []⟩ src) (st.base, e) = some (st'.base, e') := by
  intro ns
  induction ns with
  | nil =>
    intro d is st st' h1 h2
    cases h1
    cases h2
    exact ⟨[], [], .nil, by rw [loadImported], fun e he => ⟨e, he, by rw [parseItems, processAll]⟩⟩
  | cons n ns ih =>
    intro d is st st' h1 h2
    unfold topItems at h1
    obtain ⟨i, h3, h4⟩ := Option.bind_eq_some_iff.mp h1
    obtain ⟨is', h5, rfl⟩ := Option.map_eq_some_iff.mp h4
    rw [List.foldlM_cons] at h2
    obtain ⟨st1, h6, h7⟩ := Option.bind_eq_some_iff.mp h2
    obtain ⟨parts, src, t1, t2, t3⟩ := ih _ is' st1 st' h5 h7
    rcases top_step rp amp h3 h6 with ⟨g1, g2, g3⟩ | ⟨u, l, o, g1, g2, g3, g4⟩ | ⟨g1, g2, g3⟩
    · refine ⟨parts, src, .apart _ _ _ g1 t1, t2, fun e he => ?_⟩
      obtain ⟨e', k1, k2⟩ := t3 e (by omega)
      exact ⟨e', k1, by rw [← g2]; exact k2⟩
    · obtain ⟨ps, q1, q2⟩ := himp u o g2
      unfold loadTree at q2
      refine ⟨.sheet l (mode u) ps :: parts, .importSheet o.base l :: src, .imported _ _ _ _ _ _ g1 q1 t1, ?_, fun e he => ?_⟩
      · rw [loadImported]
        cases hx : loadImported env.names env.typeOk env.spec env.ph rp amp ps with
        | none => rw [hx] at q2; cases q2
        | some x =>
          cases x with
          | none => rw [hx] at q2; cases q2
          | some x =>
            rw [hx] at q2
            dsimp only at q2 ⊢
            rw [q2]
            dsimp only
            rw [t2]
            rfl
      · obtain ⟨e', k1, k2⟩ := t3 e (by omega)
        refine ⟨e', k1, ?_⟩
        rw [parseItems, processAll, parseItem, process, g3]
        exact k2
    · refine ⟨.own [readRule p n] :: parts, readRule p n :: src, .own _ _ _ g1 g2 t1, ?_, fun e he => ?_⟩
      · rw [loadImported, t2]
        rfl
      · obtain ⟨e1, k1, k2⟩ := process_shift rp (noEmbed_rule amp n _) g3 he
        obtain ⟨e', k3, k4⟩ := t3 e1 k1
        refine ⟨e', k3, ?_⟩
        rw [parseItems, processAll, k2]
        exact k4

theorem with_tree {rp : S → List S → S} {amp : S} {env : BuildEnv S C V} {mode : Text → ErrorMode}
    {disk : Text → Option (List Node)} {imports : Text → Option (FSheet S M C N T V A B)}
    (himp : ∀ u o, imports u = some o → ∃ parts, FileTree p mode disk u parts ∧
      loadTree env.names env.typeOk env.spec env.ph rp amp (mode u) parts = some (some o.base))
    {path : Text} {nodes : List Node} (hd : disk path = some nodes) {o : FSheet S M C N T V A B}
    (h : loadWith p rp amp env (mode path) imports nodes = .loaded o) :
    ∃ parts, FileTree p mode disk path parts ∧
      loadTree env.names env.typeOk env.spec env.ph rp amp (mode path) parts = some (some o.base) := by
  unfold loadWith at h
  split at h
  · cases h
  · cases h
  · rename_i st hst
    unfold File.loadStylesheet at hst
    obtain ⟨is, h1, h2⟩ := Option.bind_eq_some_iff.mp hst
    obtain ⟨st0, h3, h4⟩ := Option.bind_eq_some_iff.mp h2
    obtain ⟨parts, src, t1, t2, t3⟩ := tree_fold rp amp env mode disk himp nodes [] is State.start st0 h1 h3
    obtain ⟨e', k1, k2⟩ := t3 0 (Nat.le_refl _)
    refine ⟨parts, .file _ _ _ hd t1, ?_⟩
    split at h4
    · cases h4
    · rename_i hne
      obtain ⟨b, h5, h6⟩ := Option.map_eq_some_iff.mp h4
      cases h6
      unfold loadTree
      rw [t2]
      dsimp only
      unfold finish
      have : Loader.loadStylesheet rp amp (mode path) src = some (some b) := by
        unfold Loader.loadStylesheet
        have k2' : processAll rp (parseItems amp ⟨[], []⟩ src) (Builder.new, 0) = some (st0.base, e') := k2
        rw [k2']
        simp only [Option.bind_some]
        rw [if_neg (by rintro ⟨a, b⟩; exact hne ⟨by omega, b⟩), h5]
        rfl
      rw [this]
      dsimp only
      unfold State.build at h
      dsimp only at h
      split at h
      · cases h
      · cases h
      · rename_i sh hsh
        cases h
        rw [hsh]

/-- with a mode that does not return errors, an error is one of `build` -/
theorem with_tree_error {rp : S → List S → S} {amp : S} {env : BuildEnv S C V} {mode : Text → ErrorMode}
    {disk : Text → Option (List Node)} {imports : Text → Option (FSheet S M C N T V A B)}
    (himp : ∀ u o, imports u = some o → ∃ parts, FileTree p mode disk u parts ∧
      loadTree env.names env.typeOk env.spec env.ph rp amp (mode u) parts = some (some o.base))
    {path : Text} {nodes : List Node} (hd : disk path = some nodes) (hm : mode path ≠ .returnError)
    (h : loadWith p rp amp env (mode path) imports nodes = .error) :
    ∃ parts, FileTree p mode disk path parts ∧
      loadTree env.names env.typeOk env.spec env.ph rp amp (mode path) parts = some none := by
  unfold loadWith at h
  split at h
  · cases h
  · rename_i hst
    unfold File.loadStylesheet at hst
    obtain ⟨is, h1, h2⟩ := Option.bind_eq_some_iff.mp hst
    obtain ⟨st0, h3, h4⟩ := Option.bind_eq_some_iff.mp h2
    split at h4
    · rename_i hc
      exact absurd hc.2 hm
    · obtain ⟨b, h5, h6⟩ := Option.map_eq_some_iff.mp h4
      cases h6
  · rename_i st hst
    unfold File.loadStylesheet at hst
    obtain ⟨is, h1, h2⟩ := Option.bind_eq_some_iff.mp hst
    obtain ⟨st0, h3, h4⟩ := Option.bind_eq_some_iff.mp h2
    obtain ⟨parts, src, t1, t2, t3⟩ := tree_fold rp amp env mode disk himp nodes [] is State.start st0 h1 h3
    obtain ⟨e', k1, k2⟩ := t3 0 (Nat.le_refl _)
    refine ⟨parts, .file _ _ _ hd t1, ?_⟩
    split at h4
    · cases h4
    · rename_i hne
      obtain ⟨b, h5, h6⟩ := Option.map_eq_some_iff.mp h4
      cases h6
      unfold loadTree
      rw [t2]
      dsimp only
      unfold finish
      have : Loader.loadStylesheet rp amp (mode path) src = some (some b) := by
        unfold Loader.loadStylesheet
        have k2' : processAll rp (parseItems amp ⟨[], []⟩ src) (Builder.new, 0) = some (st0.base, e') := k2
        rw [k2']
        simp only [Option.bind_some]
        rw [if_neg (by rintro ⟨a, b⟩; exact hne ⟨by omega, b⟩), h5]
        rfl
      rw [this]
      dsimp only
      unfold State.build at h
      dsimp only at h
      split at h
      · cases h
      · rename_i hsh
        rw [hsh]
      · cases h

/-- without errors in `@font-face` and `@keyframes` all the errors are those of the rules -/
theorem tree_fold_strict (rp : S → List S → S) (amp : S) (env : BuildEnv S C V) (mode : Text → ErrorMode)
    (disk : Text → Option (List Node)) {imports : Text → Option (FSheet S M C N T V A B)}
    (himp : ∀ u o, imports u = some o → ∃ parts, FileTree p mode disk u parts ∧
      loadTree env.names env.typeOk env.spec env.ph rp amp (mode u) parts = some (some o.base)) :
    ∀ (ns : List Node) (d : List Text) (is) (st st' : State S M C N T V A B), (∀ n ∈ ns, ApartRule n → CleanRule p n) →
    topItems p imports d ns = some is → is.foldlM (processTop rp amp) st = some st' →
    ∃ parts src, NodesTree p mode disk ns parts ∧
      loadImported env.names env.typeOk env.spec env.ph rp amp parts = some (some src) ∧
      processAll rp (parseItems amp ⟨[], []⟩ src) (st.base, st.errors) = some (st'.base, st'.errors) := by
  intro ns
  induction ns with
  | nil =>
    intro d is st st' _ h1 h2
    cases h1
    cases h2
    exact ⟨[], [], .nil, by rw [loadImported], by rw [parseItems, processAll]⟩
  | cons n ns ih =>
    intro d is st st' hna h1 h2
    unfold topItems at h1
    obtain ⟨i, h3, h4⟩ := Option.bind_eq_some_iff.mp h1
    obtain ⟨is', h5, rfl⟩ := Option.map_eq_some_iff.mp h4
    rw [List.foldlM_cons] at h2
    obtain ⟨st1, h6, h7⟩ := Option.bind_eq_some_iff.mp h2
    obtain ⟨parts, src, t1, t2, t3⟩ := ih _ is' st1 st' (fun m hm => hna m (List.mem_cons_of_mem _ hm)) h5 h7
    rcases top_step rp amp h3 h6 with ⟨g1, g2, _⟩ | ⟨u, l, o, g1, g2, g3, g4⟩ | ⟨g1, g2, g3⟩
    · have he := (apart_errors rp amp h3 h6 g1).mpr (hna n List.mem_cons_self g1)
      exact ⟨parts, src, .apart _ _ _ g1 t1, t2, by rw [← g2, ← he]; exact t3⟩
    · obtain ⟨ps, q1, q2⟩ := himp u o g2
      unfold loadTree at q2
      refine ⟨.sheet l (mode u) ps :: parts, .importSheet o.base l :: src, .imported _ _ _ _ _ _ g1 q1 t1, ?_, ?_⟩
      · rw [loadImported]
        cases hx : loadImported env.names env.typeOk env.spec env.ph rp amp ps with
        | none => rw [hx] at q2; cases q2
        | some x =>
          cases x with
          | none => rw [hx] at q2; cases q2
          | some x =>
            rw [hx] at q2
            dsimp only at q2 ⊢
            rw [q2]
            dsimp only
            rw [t2]
            rfl
      · rw [parseItems, processAll, parseItem, process, g3, ← g4]
        exact t3
    · refine ⟨.own [readRule p n] :: parts, readRule p n :: src, .own _ _ _ g1 g2 t1, ?_, ?_⟩
      · rw [loadImported, t2]
        rfl
      · rw [parseItems, processAll, g3]
        exact t3

/-- an item adds no errors or some -/
theorem top_errors (rp : S → List S → S) (amp : S) {imports : Text → Option (FSheet S M C N T V A B)} {d : List Text}
    {n : Node} {i} {st st' : State S M C N T V A B} (h1 : topItem p imports d n = some i)
    (h2 : processTop rp amp st i = some st') : st.errors ≤ st'.errors := by
  rcases top_step rp amp h1 h2 with ⟨_, _, h⟩ | ⟨_, _, _, _, _, _, h⟩ | ⟨_, _, h⟩
  · exact h
  · omega
  · obtain ⟨e, h3, h4⟩ := process_shift rp (noEmbed_rule amp n _) h (le_refl _)
    have hp : ∀ (i : SheetItem S M C N T V (TDecl B) (ADecl A)) st, process rp i st = processAll rp [i] st := by
      intro i st
      rw [processAll]
      cases process rp i st with
      | none => rfl
      | some x => simp [processAll]
    rw [hp, processAll_eq rp _ (noEmbed_rule amp n _)] at h
    obtain ⟨x, _, e⟩ := Option.map_eq_some_iff.mp h
    have := congrArg Prod.snd e
    dsimp only at this
    omega

/-- errors in `@font-face` and `@keyframes` are counted -/
theorem fold_unclean (rp : S → List S → S) (amp : S) {imports : Text → Option (FSheet S M C N T V A B)} :
    ∀ (ns : List Node) (d : List Text) (is) (st st' : State S M C N T V A B),
    topItems p imports d ns = some is → is.foldlM (processTop rp amp) st = some st' →
    st.errors ≤ st'.errors ∧ (st'.errors = st.errors → ∀ n ∈ ns, ApartRule n → CleanRule p n) := by
  intro ns
  induction ns with
  | nil =>
    intro d is st st' h1 h2
    cases h1
    cases h2
    exact ⟨le_refl _, fun _ n hn => absurd hn List.not_mem_nil⟩
  | cons n ns ih =>
    intro d is st st' h1 h2
    unfold topItems at h1
    obtain ⟨i, h3, h4⟩ := Option.bind_eq_some_iff.mp h1
    obtain ⟨is', h5, rfl⟩ := Option.map_eq_some_iff.mp h4
    rw [List.foldlM_cons] at h2
    obtain ⟨st1, h6, h7⟩ := Option.bind_eq_some_iff.mp h2
    obtain ⟨t1, t2⟩ := ih _ is' st1 st' h5 h7
    have := top_errors rp amp h3 h6
    refine ⟨by omega, fun e => List.forall_mem_cons.mpr ⟨fun ha => ?_, t2 (by omega)⟩⟩
    exact (apart_errors rp amp h3 h6 ha).mp (by omega)

/-- a file whose errors are returned is loaded only without errors in `@font-face` and `@keyframes` -/
theorem loaded_clean {rp : S → List S → S} {amp : S} {env : BuildEnv S C V}
    {imports : Text → Option (FSheet S M C N T V A B)} {nodes : List Node} {o}
    (h : loadWith p rp amp env .returnError imports nodes = .loaded o) : ∀ n ∈ nodes, ApartRule n → CleanRule p n := by
  unfold loadWith at h
  split at h
  · cases h
  · cases h
  · rename_i st hst
    unfold File.loadStylesheet at hst
    obtain ⟨is, h1, h2⟩ := Option.bind_eq_some_iff.mp hst
    obtain ⟨st0, h3, h4⟩ := Option.bind_eq_some_iff.mp h2
    refine (fold_unclean rp amp nodes [] is State.start st0 h1 h3).2 ?_
    split at h4
    · cases h4
    · rename_i hne
      have : ¬ st0.errors > 0 := fun hgt => hne ⟨hgt, rfl⟩
      show st0.errors = 0
      omega

/-- the same as `with_tree_error`, for any mode -/
theorem with_tree_error_strict {rp : S → List S → S} {amp : S} {env : BuildEnv S C V} {mode : Text → ErrorMode}
    {disk : Text → Option (List Node)} {imports : Text → Option (FSheet S M C N T V A B)}
    (himp : ∀ u o, imports u = some o → ∃ parts, FileTree p mode disk u parts ∧
      loadTree env.names env.typeOk env.spec env.ph rp amp (mode u) parts = some (some o.base))
    {path : Text} {nodes : List Node} (hd : disk path = some nodes) (hna : ∀ n ∈ nodes, ApartRule n → CleanRule p n)
    (h : loadWith p rp amp env (mode path) imports nodes = .error) :
    ∃ parts, FileTree p mode disk path parts ∧
      loadTree env.names env.typeOk env.spec env.ph rp amp (mode path) parts = some none := by
  unfold loadWith at h
  split at h
  · cases h
  · rename_i hst
    unfold File.loadStylesheet at hst
    obtain ⟨is, h1, h2⟩ := Option.bind_eq_some_iff.mp hst
    obtain ⟨st0, h3, h4⟩ := Option.bind_eq_some_iff.mp h2
    obtain ⟨parts, src, t1, t2, t3⟩ := tree_fold_strict rp amp env mode disk himp nodes [] is State.start st0 hna h1 h3
    refine ⟨parts, .file _ _ _ hd t1, ?_⟩
    split at h4
    · rename_i hc
      unfold loadTree
      rw [t2]
      dsimp only
      unfold finish
      have : Loader.loadStylesheet rp amp (mode path) src = some none := by
        unfold Loader.loadStylesheet
        have k2' : processAll rp (parseItems amp ⟨[], []⟩ src) (Builder.new, 0) = some (st0.base, st0.errors) := t3
        rw [k2']
        simp only [Option.bind_some]
        rw [if_pos hc]
      rw [this]
    · obtain ⟨b, h5, h6⟩ := Option.map_eq_some_iff.mp h4
      cases h6
  · rename_i st hst
    unfold File.loadStylesheet at hst
    obtain ⟨is, h1, h2⟩ := Option.bind_eq_some_iff.mp hst
    obtain ⟨st0, h3, h4⟩ := Option.bind_eq_some_iff.mp h2
    obtain ⟨parts, src, t1, t2, t3⟩ := tree_fold_strict rp amp env mode disk himp nodes [] is State.start st0 hna h1 h3
    refine ⟨parts, .file _ _ _ hd t1, ?_⟩
    split at h4
    · cases h4
    · rename_i hne
      obtain ⟨b, h5, h6⟩ := Option.map_eq_some_iff.mp h4
      cases h6
      unfold loadTree
      rw [t2]
      dsimp only
      unfold finish
      have : Loader.loadStylesheet rp amp (mode path) src = some (some b) := by
        unfold Loader.loadStylesheet
        have k2' : processAll rp (parseItems amp ⟨[], []⟩ src) (Builder.new, 0) = some (st0.base, st0.errors) := t3
        rw [k2']
        simp only [Option.bind_some]
        rw [if_neg hne, h5]
        rfl
      rw [this]
      dsimp only
      unfold State.build at h
      dsimp only at h
      split at h
      · cases h
      · rename_i hsh
        rw [hsh]
      · cases h

theorem file_tree {rp : S → List S → S} {amp : S} {env : BuildEnv S C V} {mode : Text → ErrorMode}
    {disk : Text → Option (List Node)} : ∀ (f : Nat) (path : Text) (o : FSheet S M C N T V A B),
    loadFile p rp amp env mode disk f path = some (.loaded o) →
    ∃ parts, FileTree p mode disk path parts ∧
      loadTree env.names env.typeOk env.spec env.ph rp amp (mode path) parts = some (some o.base) := by
  intro f
  induction f with
  | zero => intro path o h; cases h
  | succ f ih =>
    intro path o h
    unfold loadFile at h
    split at h
    · cases h
    · rename_i nodes hn
      split at h
      · cases h
      · cases h
      · cases h
      · rename_i m hm
        obtain ⟨h1, h2⟩ := loadImports_get hm
        refine with_tree ?_ hn (Option.some.inj h)
        intro u o' hu
        by_cases hi : u ∈ extractImports nodes
        · obtain ⟨s, h3, h4⟩ := h1 u hi
          rw [h4] at hu
          cases hu
          exact ih u _ h3
        · rw [h2 u hi] at hu
          cases hu

theorem tree_unique {mode : Text → ErrorMode} {disk : Text → Option (List Node)} {path : Text} {parts}
    (h : FileTree p mode disk path parts) : ∀ parts', FileTree p mode disk path parts' → parts = parts' := by
  refine FileTree.rec (motive_1 := fun path parts _ => ∀ parts', FileTree p mode disk path parts' → parts = parts')
    (motive_2 := fun ns parts _ => ∀ parts', NodesTree p mode disk ns parts' → parts = parts') ?_ ?_ ?_ ?_ ?_ h
  · intro path nodes parts hd _ ih parts' h'
    cases h' with
    | file _ nodes' _ hd' hn =>
      rw [hd] at hd'
      cases hd'
      exact ih _ hn
  · intro parts' h'
    cases h'
    rfl
  · intro n u l ns parts rest hi _ _ ih1 ih2 parts' h'
    cases h' with
    | imported _ u' l' _ ps' rest' hi' hf hn =>
      obtain ⟨rfl, rfl⟩ := importsAs_unique hi hi'
      rw [ih1 _ hf, ih2 _ hn]
    | apart _ _ _ ha _ => exact absurd ha (apart_import hi)
    | own _ _ _ hno _ _ => exact absurd hi (hno _ _)
  · intro n ns rest ha _ ih parts' h'
    cases h' with
    | imported _ u' l' _ ps' rest' hi' hf hn => exact absurd ha (apart_import hi')
    | apart _ _ _ _ hn => exact ih _ hn
    | own _ _ _ _ hno _ => exact absurd ha hno
  · intro n ns rest hno hna _ ih parts' h'
    cases h' with
    | imported _ u' l' _ ps' rest' hi' hf hn => exact absurd hi' (hno _ _)
    | apart _ _ _ ha _ => exact absurd ha hna
    | own _ _ _ _ _ hn => rw [ih _ hn]

/-- a file with a tree is on top of no cycle -/
theorem tree_noCycle {mode : Text → ErrorMode} {disk : Text → Option (List Node)} {path : Text} {parts}
    (h : FileTree p mode disk path parts) : NoCycle disk path := by
  refine FileTree.rec (motive_1 := fun path _ _ => NoCycle disk path)
    (motive_2 := fun ns _ _ => ∀ n ∈ ns, ∀ u, ImportRule n u → NoCycle disk u) ?_ ?_ ?_ ?_ ?_ h
  · intro path nodes parts hd _ ih
    refine Acc.intro _ ?_
    rintro b ⟨nodes', hd', n, hn, hi⟩
    rw [hd] at hd'
    cases hd'
    exact ih n hn b hi
  · intro n hn; cases hn
  · intro n u l ns parts rest hi _ _ ih1 ih2 m hm v hv
    rcases List.mem_cons.mp hm with rfl | hm
    · have h1 := importRule_iff.mp (importsAs_rule hi)
      rw [importRule_iff.mp hv] at h1
      cases h1
      exact ih1
    · exact ih2 m hm v hv
  · intro n ns rest ha _ ih m hm v hv
    rcases List.mem_cons.mp hm with rfl | hm
    · cases hv <;> exact absurd ha id
    · exact ih m hm v hv
  · intro n ns rest hno _ _ ih m hm v hv
    rcases List.mem_cons.mp hm with rfl | hm
    · exfalso
      cases hv with
      | plain name t u hn ht => exact hno _ _ (.plain _ _ _ hn ht)
      | layer name t u f l hn ht hf => exact hno _ _ (.layer _ _ _ _ _ hn ht hf)
    · exact ih m hm v hv

/-- the trees of the imported files -/
theorem tree_imports [DecidableEq V] (rp : S → List S → S) (amp : S) {mode : Text → ErrorMode} {disk : Text → Option (List Node)}
    {names : C → Option Nat} {typeOk : Nat → V → Bool} {ph : V → PropertyValue V} {ns : List Node} : ∀ {parts},
    NodesTree p mode disk ns parts → ∀ n ∈ ns, ∀ u, ImportRule n u → ∃ ps, FileTree p mode disk u ps ∧
      ((∀ r ∈ treeDecls rp amp parts, ∀ d ∈ r.decls, DeclOk names typeOk ph d) →
        ∀ r ∈ treeDecls rp amp ps, ∀ d ∈ r.decls, DeclOk names typeOk ph d) := by
  induction ns with
  | nil => intro parts _ n hn; cases hn
  | cons n ns ih =>
    intro parts h m hm v hv
    cases h with
    | imported _ u l _ ps rest hi hf hn =>
      rcases List.mem_cons.mp hm with rfl | hm
      · have h1 := importRule_iff.mp (importsAs_rule hi)
        rw [importRule_iff.mp hv] at h1
        cases h1
        refine ⟨ps, hf, fun h => ?_⟩
        rw [treeDecls] at h
        exact (SheetTree.decls_inLayer (l.getD []) _).mp fun r hr => h r (List.mem_append_left _ hr)
      · obtain ⟨qs, q1, q2⟩ := ih hn m hm v hv
        refine ⟨qs, q1, fun h => q2 fun r hr => h r ?_⟩
        rw [treeDecls]
        exact List.mem_append_right _ hr
    | apart _ _ _ ha hn =>
      rcases List.mem_cons.mp hm with rfl | hm
      · cases hv <;> exact absurd ha id
      · exact ih hn m hm v hv
    | own _ _ rest hno _ hn =>
      rcases List.mem_cons.mp hm with rfl | hm
      · exfalso
        cases hv with
        | plain name t u hn ht => exact hno _ _ (.plain _ _ _ hn ht)
        | layer name t u f l hn ht hf => exact hno _ _ (.layer _ _ _ _ _ hn ht hf)
      · obtain ⟨qs, q1, q2⟩ := ih hn m hm v hv
        refine ⟨qs, q1, fun h => q2 fun r hr => h r ?_⟩
        rw [treeDecls]
        exact List.mem_append_right _ hr

end Flair.Proofs.FileTree
