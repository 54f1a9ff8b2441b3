import Verif.Proofs.Nesting
import Verif.Props.Loader
/-!
# Nested sources: selectors and specificities are as meant
-/
namespace Flair.Proofs.Nesting
open Flair.Tree Flair.Selector Flair.Nesting Flair.Spec Flair.Sheet Flair.Loader
variable {E M C N T V X Y : Type} [DecidableEq E] {w : SWorld E}

theorem most_mem (a b : Weight) : a.most b = a ∨ a.most b = b := by
  unfold Weight.most; split <;> simp

theorem most_zero (a : Weight) : a.most .zero = a := by
  unfold Weight.most Weight.Less Weight.zero; simp

theorem heaviest_mem : ∀ l : List Weight, l ≠ [] → heaviest l ∈ l
  | [], h => absurd rfl h
  | [a], _ => by simp [heaviest, most_zero]
  | a :: b :: l, _ => by
    rw [heaviest]
    rcases most_mem a (heaviest (b :: l)) with e | e <;> rw [e]
    · simp
    · exact List.mem_cons_of_mem _ (heaviest_mem (b :: l) (by simp))

/-- The selectors in force are as meant -/
structure Now (w : SWorld E) (cs : List Compiled) (rs : List (Aim E)) : Prop where
  ok : ∀ c ∈ cs, SelOk false c.sel
  same : ∀ a e n, (∃ c ∈ cs, SelMeans w everyOne noParent a c.sel e ∧ c.spec = n) ↔
    ∃ q ∈ rs, q.picks e ∧ q.weight.number = n
  top : GoodN (greatest cs) (heaviest (rs.map (·.weight)))
  small : ∀ q ∈ rs, q.weight.Small

theorem now_any {cs : List Compiled} {rs : List (Aim E)} (h : Now w cs rs) (a : Option E) (e : E) :
    AnyMeans w everyOne noParent a (listOf cs) e ↔ ∃ q ∈ rs, q.picks e := by
  rw [any_listOf]
  constructor
  · rintro ⟨c, hc, hm⟩
    obtain ⟨q, hq, hp, _⟩ := (h.same a e c.spec).mp ⟨c, hc, hm, rfl⟩
    exact ⟨q, hq, hp⟩
  · rintro ⟨q, hq, hp⟩
    obtain ⟨c, hc, hm, _⟩ := (h.same a e q.weight.number).mpr ⟨q, hq, hp, rfl⟩
    exact ⟨c, hc, hm⟩

/-- Selectors one by one -/
theorem now_of {cs : List Compiled} {rs : List (Aim E)}
    (h : List.Forall₂ (fun c q => SelOk false c.sel ∧ (∀ a e, SelMeans w everyOne noParent a c.sel e ↔ Aim.picks q e) ∧
      GoodN c.spec q.weight ∧ q.weight.Small) cs rs) : Now w cs rs := by
  induction h with
  | nil => exact ⟨by simp, by simp, by simpa [greatest, heaviest] using goodN_zero, by simp⟩
  | @cons c q cs rs h hs ih =>
    obtain ⟨h1, h2, h3, h4⟩ := h
    refine ⟨by simpa using ⟨h1, ih.ok⟩, ?_, ?_, by simpa using ⟨h4, ih.small⟩⟩
    · intro a e n
      have e' : c.spec = q.weight.number := h3.2.1 h4
      have := ih.same a e n
      simp only [List.mem_cons, exists_eq_or_imp, this, h2 a e, e']
    · simp only [greatest, List.map_cons, heaviest]
      exact good_max h3 ih.top

theorem now_nested {cs ss : List Compiled} {rs : List (Aim E)} (h : Now w cs rs)
    (hs : ∀ s ∈ ss, SelectorOk true s ∧ (aim w everyOne rs s.sel).weight.Small) :
    Now w (ss.map fun s => replaceAmp s cs) (ss.map fun s => aim w everyOne rs s.sel) := by
  apply now_of
  induction ss with
  | nil => exact .nil
  | cons s ss ih =>
    refine .cons ?_ (ih fun x hx => hs x (by simp [hx]))
    obtain ⟨⟨h1, h2, h3, h4⟩, h5⟩ := hs s (by simp)
    refine ⟨?_, ?_, replaced_good h1 h3 h.top, h5⟩
    · rw [replaced_sel]
      exact sel_ok_fill (ok_listOf _ h.ok) _ h2
    · intro a e
      rw [replaced_sel, sel_fill (now_any h) a s.sel e, sel_free a none s.sel e h4]
      rfl

theorem now_top {ss : List Compiled} (hs : ∀ s ∈ ss, SelectorOk false s ∧ (aim w everyOne [] s.sel).weight.Small) :
    Now w ss (ss.map fun s => aim w everyOne [] s.sel) := by
  apply now_of
  induction ss with
  | nil => exact .nil
  | cons s ss ih =>
    refine .cons ?_ (ih fun x hx => hs x (by simp [hx]))
    obtain ⟨⟨h1, h2, h3, h4⟩, h5⟩ := hs s (by simp)
    have e0 : (fun e => ∃ p ∈ ([] : List (Aim E)), p.picks e) = noParent := by funext e; simp [noParent]
    refine ⟨h2, ?_, ?_, h5⟩
    · intro a e
      rw [sel_free a none s.sel e h4]
      unfold aim
      rw [e0]
    · have : s.spec = selSpec s.sel := by rw [h1]; rfl
      rw [this]
      exact spec_good _

theorem now_amp {cs : List Compiled} {rs : List (Aim E)} (h : Now w cs rs) (hw : SameWeights rs) :
    Now w [replaceAmp ampSel cs] rs := by
  have hok : SelOk false (replaceAmp ampSel cs).sel := by
    rw [replaced_sel]
    refine sel_ok_fill (ok_listOf _ h.ok) _ ?_
    simp [ampSel, compiled, SelOk, CompoundOk, SimpleOk]
  have hg : GoodN (replaceAmp ampSel cs).spec (heaviest (rs.map (·.weight))) := by
    have := replaced_good (s := ampSel) rfl (by simp [ampSel, compiled, FlatSel, FlatCompound, FlatSimple]) h.top
    simpa only [ampSel, compiled, selWeight, compoundWeight, simpleWeight, plus_zero] using this
  refine ⟨by simpa using hok, ?_, ?_, h.small⟩
  · intro a e n
    simp only [List.mem_singleton, exists_eq_left]
    have hm : SelMeans w everyOne noParent a (replaceAmp ampSel cs).sel e ↔ ∃ q ∈ rs, q.picks e := by
      rw [replaced_sel, sel_fill (now_any h) a ampSel.sel e]
      simp [ampSel, compiled, SelMeans, CompoundMeans, SimpleMeans, everyOne]
    rw [hm]
    have key : ∀ q ∈ rs, (replaceAmp ampSel cs).spec = q.weight.number := by
      intro q hq
      have hne : rs.map (·.weight) ≠ [] := by
        intro e; simp only [List.map_eq_nil_iff] at e; rw [e] at hq; simp at hq
      obtain ⟨q', hq', e'⟩ := List.mem_map.mp (heaviest_mem _ hne)
      rw [← e', hw q' hq' q hq] at hg
      exact hg.2.1 (h.small q hq)
    constructor
    · rintro ⟨⟨q, hq, hp⟩, rfl⟩
      exact ⟨q, hq, hp, (key q hq).symm⟩
    · rintro ⟨q, hq, hp, rfl⟩
      exact ⟨⟨q, hq, hp⟩, key q hq⟩
  · simpa only [greatest, max_eq_left (Nat.zero_le _)] using hg

theorem now_meant (ok : ElementsOk w) {cs : List Compiled} {rs : List (Aim E)} (h : Now w cs rs) (layer : List Char)
    (media : List M) (d : SrcDecl C N T V X Y) :
    AsMeant w ⟨cs.map fun s => ⟨layer, media, s⟩, [d]⟩ ⟨layer, media, rs, d⟩ := by
  refine ⟨rfl, ?_, ?_, ?_⟩
  · intro s hs
    obtain ⟨c, _, rfl⟩ := List.mem_map.mp hs
    exact ⟨rfl, rfl⟩
  · intro e he s hs
    obtain ⟨c, hc, rfl⟩ := List.mem_map.mp hs
    unfold matchesSelector
    rcases Proofs.Selector.sel_says ok none c.sel e he (h.ok c hc) with ⟨_, e⟩ | ⟨_, e⟩ <;> simp [e]
  · intro e he n
    rw [← h.same none e n]
    simp only [List.mem_map, exists_exists_and_eq_and]
    refine exists_congr fun c => and_congr_right fun hc => and_congr_left fun _ => ?_
    unfold matchesSelector
    rcases Proofs.Selector.sel_says ok none c.sel e he (h.ok c hc) with ⟨h, e⟩ | ⟨h, e⟩ <;> simp [e, h]

theorem body_meant (ok : ElementsOk w) (layer : List Char) (media : List M) (cs : List Compiled) (rs : List (Aim E))
    (body : List (BodySrc Compiled M C N T V X Y)) (h : Now w cs rs) (hb : BodyOk w everyOne rs body) :
    List.Forall₂ (AsMeant w) (bodyDecls replaceAmp ampSel layer media cs body) (bodyMeant w everyOne layer media rs body) := by
  fun_induction bodyDecls replaceAmp ampSel layer media cs body generalizing rs with
  | case1 => simp only [bodyMeant]; exact .nil
  | case2 layer media cs ds rest ih =>
    rw [BodyOk] at hb
    rw [bodyMeant]
    refine List.rel_append ?_ (ih rs h hb)
    induction ds with
    | nil => exact .nil
    | cons d ds ihd => exact .cons (now_meant ok h layer media d) ihd
  | case3 layer media cs rest ih => rw [BodyOk] at hb; rw [bodyMeant]; exact ih rs h hb
  | case4 layer media cs b rest ih => rw [BodyOk] at hb; rw [bodyMeant]; exact ih rs h hb
  | case5 layer media cs ss b rest ih1 ih2 =>
    rw [BodyOk] at hb
    rw [bodyMeant]
    simp only [List.map_subtype, List.unattach_attach] at ih1
    exact List.rel_append (ih1 _ (now_nested h hb.1.1) hb.2.1) (ih2 rs h hb.2.2)
  | case6 layer media cs conds b rest ih1 ih2 =>
    rw [BodyOk] at hb
    rw [bodyMeant]
    exact List.rel_append (ih1 _ (now_amp h hb.1) hb.2.1) (ih2 rs h hb.2.2)
  | case7 layer media cs conds b rest ih1 ih2 =>
    rw [BodyOk] at hb
    rw [bodyMeant]
    exact List.rel_append (ih1 _ (now_amp h hb.1) hb.2.1) (ih2 rs h hb.2.2)

theorem doc_meant (ok : ElementsOk w) (layer : List Char) (media : List M) (src : List (Src Compiled M C N T V X Y))
    (hs : SourceOk w everyOne src) :
    List.Forall₂ (AsMeant w) (docDecls replaceAmp ampSel layer media src) (docMeant w everyOne layer media src) := by
  fun_induction docDecls replaceAmp ampSel layer media src with
  | case1 => simp only [docMeant]; exact .nil
  | case2 layer media name inner rest ih1 ih2 =>
    rw [SourceOk] at hs
    rw [docMeant]
    exact List.rel_append (ih1 hs.1) (ih2 hs.2)
  | case3 layer media conds inner rest ih1 ih2 =>
    rw [SourceOk] at hs
    rw [docMeant]
    exact List.rel_append (ih1 hs.1) (ih2 hs.2)
  | case4 layer media ss body rest ih =>
    rw [SourceOk] at hs
    rw [docMeant]
    exact List.rel_append (body_meant ok _ _ _ _ _ (now_top hs.1.1) hs.2.1) (ih hs.2.2)
  | case5 layer media head rest h1 h2 h3 ih =>
    have hr : SourceOk w everyOne rest := by
      cases head with
      | layerBlock names inner => rw [SourceOk] at hs; exact hs.2
      | mediaBlock => exact absurd rfl (h2 _ _)
      | rule ss body =>
        cases ss with
        | some ss => exact absurd rfl (h3 _ _)
        | none => simpa only [SourceOk] using hs
      | _ => simpa only [SourceOk] using hs
    rw [docMeant]
    · exact ih hr
    · exact h1
    · exact h2
    · exact h3

end Flair.Proofs.Nesting
