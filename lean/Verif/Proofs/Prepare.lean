import Verif.Proofs.Tree
import Verif.Proofs.SortStable
import Verif.Spec.Prepare
/-! Lemmas on the preparation pass. -/
namespace Flair.Prepare
open Flair.Tree Flair.Spec
variable {E A : Type} [DecidableEq E] [DecidableEq A]
set_option linter.unusedSectionVars false

/-- what applies to any entity -/
def effAll (f : Forest E) (sheets : E → Option (NodeSheet A)) (e : E) : Option A :=
  effective f sheets e ((sheets e).getD .inherited)

theorem effective_inherited {f : Forest E} (wf : f.WF) (sheets : E → Option (NodeSheet A)) (e : E) :
    effective f sheets e .inherited =
      match f.parent e with
      | none => none
      | some p => effAll f sheets p := by
  unfold effective
  simp only
  rw [ancestors_eq wf]
  cases hp : f.parent e with
  | none => simp
  | some p =>
    simp only [List.findSome?_cons]
    unfold effAll
    cases hs : sheets p with
    | none => simp [effective]
    | some s => cases s <;> simp [effective]

theorem effAll_is {f : Forest E} (wf : f.WF) (sheets : E → Option (NodeSheet A)) :
    ∀ e, EffectiveIs f sheets e (effAll f sheets e) := by
  have key : ∀ (n : Nat) (e : E), (ancestors f e).length < n → EffectiveIs f sheets e (effAll f sheets e) := by
    intro n
    induction n with
    | zero => intro e h; simp at h
    | succ n ih =>
      intro e h
      have hin : (sheets e = some .inherited ∨ sheets e = none) →
          EffectiveIs f sheets e (effective f sheets e .inherited) := by
        intro hs
        rw [effective_inherited wf]
        cases hp : f.parent e with
        | none => exact .root e hs hp
        | some p =>
          refine .inherit e p _ hs hp (ih p ?_)
          rw [ancestors_eq wf, hp] at h
          simpa using h
      unfold effAll
      cases hs : sheets e with
      | none => exact hin (Or.inr hs)
      | some s =>
        cases s with
        | inherited => exact hin (Or.inl hs)
        | sheet id => exact .sheet e id hs
        | block => exact .block e hs
  exact fun e => key _ e (Nat.lt_succ_self _)

theorem EffectiveIs_unique {f : Forest E} {sheets : E → Option (NodeSheet A)} {e : E} {r r' : Option A}
    (h : EffectiveIs f sheets e r) (h' : EffectiveIs f sheets e r') : r = r' := by
  induction h generalizing r' with
  | sheet e id h => cases h' <;> simp_all
  | block e h => cases h' <;> simp_all
  | inherit e p r h hp _ ih =>
    cases h' with
    | sheet _ _ h2 => simp_all
    | block _ h2 => simp_all
    | inherit _ p' _ h2 hp2 h3 =>
      rw [hp] at hp2; cases hp2
      exact ih h3
    | root _ h2 hp2 => simp_all
  | root e h hp => cases h' <;> simp_all

theorem setEffective_fst (f : Forest E) (sheets : E → Option (NodeSheet A)) (eff : E → Option A) (e x : E) :
    (setEffective f sheets eff e).1 x = if x = e ∧ sheets x ≠ none then effAll f sheets x else eff x := by
  unfold setEffective effAll
  cases hs : sheets e with
  | none =>
    simp only
    split
    · rename_i h; rw [h.1] at h; exact absurd hs h.2
    · rfl
  | some s =>
    simp only
    by_cases hx : x = e
    · subst hx; split <;> simp_all
    · split <;> simp [hx]

theorem setEffective_snd (f : Forest E) (sheets : E → Option (NodeSheet A)) (eff : E → Option A) (e : E) :
    (setEffective f sheets eff e).2 = true ↔ sheets e ≠ none ∧ eff e ≠ effAll f sheets e := by
  unfold setEffective effAll
  cases hs : sheets e with
  | none => simp
  | some s => simp only; split <;> simp_all

theorem foldl_setEffective (f : Forest E) (sheets : E → Option (NodeSheet A)) (L : List E) :
    ∀ (eff : E → Option A) (x : E),
    L.foldl (fun eff e => (setEffective f sheets eff e).1) eff x =
      if x ∈ L ∧ sheets x ≠ none then effAll f sheets x else eff x := by
  induction L with
  | nil => simp
  | cons e L ih =>
    intro eff x
    rw [List.foldl_cons, ih, setEffective_fst]
    by_cases h3 : x = e
    · subst h3
      by_cases h1 : sheets x = none <;> simp [h1]
    · simp [h3]

theorem firstPass_fst (f : Forest E) (sheets : E → Option (NodeSheet A)) (L : List E) :
    ∀ (eff : E → Option A) (x : E),
    (firstPass f sheets L eff).1 x = if x ∈ L ∧ sheets x ≠ none then effAll f sheets x else eff x := by
  induction L with
  | nil => simp [firstPass]
  | cons e L ih =>
    intro eff x
    rw [firstPass]
    simp only [ih, setEffective_fst]
    by_cases h3 : x = e
    · subst h3
      by_cases h1 : sheets x = none <;> simp [h1]
    · simp [h3]

theorem firstPass_snd (f : Forest E) (sheets : E → Option (NodeSheet A)) (L : List E) :
    ∀ (eff : E → Option A) (x : E),
    x ∈ (firstPass f sheets L eff).2 ↔ x ∈ L ∧ sheets x ≠ none ∧ eff x ≠ effAll f sheets x := by
  induction L with
  | nil => simp [firstPass]
  | cons e L ih =>
    intro eff x
    rw [firstPass]
    simp only
    have key := setEffective_snd f sheets eff e
    have key1 := setEffective_fst f sheets eff e x
    by_cases hx : x = e
    · subst hx
      by_cases h2 : (setEffective f sheets eff x).2 = true
      · rw [h2]; simp [key.mp h2]
      · rw [Bool.not_eq_true] at h2
        rw [h2, if_neg (by simp), ih, key1]
        have hn : ¬ (sheets x ≠ none ∧ eff x ≠ effAll f sheets x) := fun h => by
          have := key.mpr h; rw [h2] at this; cases this
        simp only [true_and]
        constructor
        · rintro ⟨_, h3, h4⟩; simp [h3] at h4
        · rintro ⟨_, h⟩; exact absurd h hn
    · have : (setEffective f sheets eff e).1 x = eff x := by rw [key1]; simp [hx]
      split <;> simp [ih, this, hx]

theorem mem_descendants {f : Forest E} (wf : f.WF) (root e : E) :
    e ∈ descendants f root ↔ f.Anc root e := by
  obtain ⟨out, h1, h2⟩ := bfsCollect_inv wf root (f.nodes.length + 1) [] _ (bfsInv_new wf root) (by simp)
  simp only [List.nil_append] at h2
  have hm := BfsInv_done_mem h2
  unfold descendants
  rw [h1]
  simp only [Option.getD_some, List.mem_map, Prod.exists, exists_eq_right]
  constructor
  · rintro ⟨p, hp⟩; exact ((hm p e).mp hp).1
  · intro h
    obtain ⟨p, hp, _⟩ := Anc_iff_parent.mp h
    exact ⟨p, (hm p e).mpr ⟨h, hp⟩⟩

theorem calculateEffective_eq {f : Forest E} (wf : f.WF) (sheets : E → Option (NodeSheet A))
    (order : List E → List E) (ho : ∀ l, (order l).Perm l) (changed : List E) (eff : E → Option A) (x : E)
    [Decidable (x ∈ changed ∨ ∃ m ∈ changed, sheets m ≠ none ∧ eff m ≠ effAll f sheets m ∧ f.Anc m x)] :
    calculateEffective f sheets order changed eff x =
      if sheets x ≠ none ∧ (x ∈ changed ∨ ∃ m ∈ changed, sheets m ≠ none ∧ eff m ≠ effAll f sheets m ∧
        f.Anc m x) then effAll f sheets x else eff x := by
  unfold calculateEffective
  simp only
  rw [foldl_setEffective, firstPass_fst]
  have : x ∈ (order (firstPass f sheets changed eff).2).flatMap (descendants f) ↔
      ∃ m ∈ changed, sheets m ≠ none ∧ eff m ≠ effAll f sheets m ∧ f.Anc m x := by
    simp only [List.mem_flatMap, (ho _).mem_iff, firstPass_snd, mem_descendants wf]
    constructor
    · rintro ⟨m, ⟨h1, h2, h3⟩, h4⟩; exact ⟨m, h1, h2, h3, h4⟩
    · rintro ⟨m, h1, h2, h3, h4⟩; exact ⟨m, ⟨h1, h2, h3⟩, h4⟩
  by_cases h1 : sheets x = none
  · simp [h1]
  · by_cases h2 : x ∈ changed
    · simp [h1, h2]
    · by_cases h3 : x ∈ (order (firstPass f sheets changed eff).2).flatMap (descendants f)
      · rw [if_pos ⟨h3, h1⟩, if_pos ⟨h1, Or.inr (this.mp h3)⟩]
      · rw [if_neg (fun h => h3 h.1), if_neg (fun h => h2 h.1),
          if_neg (fun h => h.2.elim h2 (fun h => h3 (this.mpr h)))]

theorem sheetRun_ok {w : World E A} {eff : E → Option A}
    (h : SheetRun MoveMarked w eff) : ∀ e, w.sheets e ≠ none →
      EffectiveIs w.forest w.sheets e (eff e) := by
  induction h with
  | start w eff h => intro e he; exact absurd (h e) he
  | @frame w eff w' eff' changed order hrun wf hs hm ho hk ih =>
    obtain ⟨hm1, hm2⟩ := hm
    intro e he
    classical
    rw [calculateEffective_eq wf _ _ ho]
    have hall := effAll_is wf w'.sheets
    split
    · exact hall e
    · rename_i hno
      have hno : e ∉ changed ∧ ∀ m ∈ changed, w'.sheets m ≠ none → eff' m ≠ effAll w'.forest w'.sheets m →
          ¬ w'.forest.Anc m e := by
        refine ⟨fun hc => hno ⟨he, Or.inl hc⟩, fun m h1 h2 h3 h4 => hno ⟨he, Or.inr ⟨m, h1, h2, h3, h4⟩⟩⟩
      -- entities that are left alone have the same sheet as before
      have key : ∀ (n : Nat) (x : E), (ancestors w'.forest x).length < n →
          (w'.sheets x ≠ none → x ∉ changed) →
          (w'.sheets x = none → w.sheets x = none ∧ w.forest.parent x = w'.forest.parent x) →
          (∀ m ∈ changed, w'.sheets m ≠ none → eff' m ≠ effAll w'.forest w'.sheets m →
            ¬ w'.forest.Anc m x) →
          ∀ r, EffectiveIs w.forest w.sheets x r → EffectiveIs w'.forest w'.sheets x r := by
        intro n
        induction n with
        | zero => intro x h; simp at h
        | succ n ihn =>
          intro x hn hx1 hx2 hx3 r hr
          have same : w.sheets x = w'.sheets x ∧ w.forest.parent x = w'.forest.parent x := by
            by_cases hc : w'.sheets x = none
            · rw [hc]; exact hx2 hc
            · exact ⟨hs x hc (hx1 hc), hm1 x hc (hx1 hc)⟩
          obtain ⟨s1, s2⟩ := same
          cases hr with
          | sheet _ id h => exact .sheet x id (s1 ▸ h)
          | block _ h => exact .block x (s1 ▸ h)
          | root _ h hp => exact .root x (s1 ▸ h) (s2 ▸ hp)
          | inherit _ p _ h hp hr =>
            have hp' : w'.forest.parent x = some p := s2 ▸ hp
            refine .inherit x p r (s1 ▸ h) hp' ?_
            by_cases hpn : w'.sheets p = none
            · refine ihn p ?_ (fun hh => absurd hpn hh) (fun _ => ⟨(hm2 p x hp' hp).1.mpr hpn, (hm2 p x hp' hp).2 hpn⟩) ?_ r hr
              · rw [ancestors_eq wf, hp'] at hn; simpa using hn
              · intro m h1 h2 h3 h4
                exact hx3 m h1 h2 h3 (.step p x h4 hp')
            · by_cases hpc : p ∈ changed
              · have heq : eff' p = effAll w'.forest w'.sheets p := by
                  by_contra hne
                  exact hx3 p hpc hpn hne (.child x hp')
                -- the parent was recomputed without effect
                have hpo : w.sheets p ≠ none := fun h => hpn ((hm2 p x hp' hp).1.mp h)
                have := ih p hpo
                rw [← hk p hpo hpn, heq] at this
                rw [EffectiveIs_unique hr this]
                exact hall p
              · refine ihn p ?_ (fun _ => hpc) (fun hh => absurd hh hpn) ?_ r hr
                · rw [ancestors_eq wf, hp'] at hn; simpa using hn
                · intro m h1 h2 h3 h4
                  exact hx3 m h1 h2 h3 (.step p x h4 hp')
      have hold : w.sheets e ≠ none := by rw [hs e he hno.1]; exact he
      have := ih e hold
      rw [← hk e hold he] at this
      exact key _ e (Nat.lt_succ_self _) (fun _ => hno.1) (fun h => absurd h he) hno.2 _ this

/-! ## siblings -/

theorem findIdx_split {all : List E} {e : E} {l1 l2 : List E} (h : all = l1 ++ e :: l2) (hn : e ∉ l1) :
    all.findIdx? (· = e) = some l1.length := by
  subst h
  induction l1 with
  | nil => simp [List.findIdx?_cons]
  | cons x l1 ih =>
    simp only [List.mem_cons, not_or] at hn
    simp [List.findIdx?_cons, Ne.symm hn.1, ih hn.2]

theorem recalculate_split {all : List E} (hnd : all.Nodup) {e : E} {l1 l2 : List E}
    (h : all = l1 ++ e :: l2) : recalculateWith e all = some ⟨l2.head?, l1.getLast?⟩ := by
  have hn : e ∉ l1 := by
    intro hm
    subst h
    exact (List.disjoint_of_nodup_append hnd) hm (by simp)
  unfold recalculateWith
  rw [findIdx_split h hn]
  subst h
  simp only [Option.some.injEq, Siblings.mk.injEq]
  constructor
  · cases l2 with
    | nil => simp
    | cons y l2 => simp
  · rcases List.eq_nil_or_concat l1 with rfl | ⟨l, y, rfl⟩
    · simp
    · simp

/-- the siblings of an entity with parent -/
def neigh (f : Forest E) (e : E) : Siblings E := (recalculateWith e (uiSiblings f e)).getD Siblings.default

theorem recalculate_wf {f : Forest E} (wf : f.WF) {e p : E} (hp : f.parent e = some p) :
    recalculateWith e (uiSiblings f e) = some (neigh f e) := by
  have hm : e ∈ f.children p := (wf.mem_iff p e).mpr hp
  obtain ⟨l1, l2, h⟩ := List.append_of_mem hm
  have : uiSiblings f e = f.children p := by unfold uiSiblings; rw [hp]
  unfold neigh
  rw [this, recalculate_split (wf.nodup p) h]
  rfl

theorem neigh_spec {f : Forest E} (wf : f.WF) {e p : E} (hp : f.parent e = some p) :
    Neighbours f e (neigh f e) := by
  constructor
  · intro h; rw [h] at hp; cases hp
  · intro p' l1 l2 hp' hl
    have : uiSiblings f e = f.children p' := by unfold uiSiblings; rw [hp']
    unfold neigh
    rw [this, recalculate_split (wf.nodup p') hl]
    exact ⟨rfl, rfl⟩

theorem loop1_ok {f : Forest E} (wf : f.WF) (added changed : E → Bool) (es : List E) :
    ∀ (sib : E → Option (Siblings E)) (done : List E), ∃ sib' done',
      siblingsLoop1 f added changed es sib done = some (sib', done') ∧
      ∀ x, (sib' x = sib x ∧ (x ∈ es → ∀ p, f.parent x = some p → added x = false ∧ changed p = false)) ∨
        (x ∈ es ∧ (∃ p, f.parent x = some p) ∧ sib' x = some (neigh f x)) := by
  induction es with
  | nil => intro sib done; exact ⟨sib, done, rfl, fun x => Or.inl ⟨rfl, by simp⟩⟩
  | cons e es ih =>
    intro sib done
    unfold siblingsLoop1
    cases hp : f.parent e with
    | none =>
      obtain ⟨s', d', h1, h2⟩ := ih sib done
      refine ⟨s', d', h1, fun x => ?_⟩
      rcases h2 x with ⟨ha, hb⟩ | ⟨ha, hb⟩
      · refine Or.inl ⟨ha, fun hx p hpx => ?_⟩
        rcases List.mem_cons.mp hx with rfl | hx
        · rw [hp] at hpx; cases hpx
        · exact hb hx p hpx
      · exact Or.inr ⟨by simp [ha], hb⟩
    | some p =>
      simp only
      split
      · rename_i hc
        obtain ⟨s', d', h1, h2⟩ := ih sib done
        refine ⟨s', d', h1, fun x => ?_⟩
        rcases h2 x with ⟨ha, hb⟩ | ⟨ha, hb⟩
        · refine Or.inl ⟨ha, fun hx q hpx => ?_⟩
          rcases List.mem_cons.mp hx with rfl | hx
          · rw [hp] at hpx; cases hpx; simpa using hc
          · exact hb hx q hpx
        · exact Or.inr ⟨by simp [ha], hb⟩
      · rw [recalculate_wf wf hp]
        simp only
        obtain ⟨s', d', h1, h2⟩ := ih (fun x => if x = e then some (neigh f e) else sib x) (e :: done)
        refine ⟨s', d', h1, fun x => ?_⟩
        rcases h2 x with ⟨ha, hb⟩ | ⟨ha, hb⟩
        · by_cases hx : x = e
          · subst hx
            refine Or.inr ⟨by simp, ⟨p, hp⟩, by rw [ha]; simp⟩
          · refine Or.inl ⟨by rw [ha]; simp [hx], fun hm q hq => ?_⟩
            exact hb ((List.mem_cons.mp hm).resolve_left hx) q hq
        · exact Or.inr ⟨by simp [ha], hb⟩

theorem loop2_ok {f : Forest E} (wf : f.WF) (es : List (E × E))
    (hes : ∀ x ∈ es, f.parent x.2 = some x.1) :
    ∀ (sib : E → Option (Siblings E)) (done : List E), ∃ sib',
      siblingsLoop2 f es sib done = some sib' ∧
      ∀ x, sib' x = sib x ∨ (sib x ≠ none ∧ (∃ p, f.parent x = some p) ∧ sib' x = some (neigh f x)) := by
  induction es with
  | nil => intro sib done; exact ⟨sib, rfl, fun x => Or.inl rfl⟩
  | cons pe es ih =>
    obtain ⟨p, e⟩ := pe
    intro sib done
    have hp : f.parent e = some p := hes (p, e) (by simp)
    have ih := ih (fun x hx => hes x (List.mem_cons_of_mem _ hx))
    unfold siblingsLoop2
    split
    · exact ih sib done
    · cases hs : sib e with
      | none => exact ih sib done
      | some s =>
        simp only
        rw [recalculate_wf wf hp]
        simp only
        obtain ⟨s', h1, h2⟩ := ih (fun x => if x = e then some (neigh f e) else sib x) (e :: done)
        refine ⟨s', h1, fun x => ?_⟩
        by_cases hx : x = e
        · subst hx
          rcases h2 x with ha | ⟨_, hb⟩
          · exact Or.inr ⟨by simp [hs], ⟨p, hp⟩, by rw [ha]; simp⟩
          · exact Or.inr ⟨by simp [hs], hb⟩
        · rcases h2 x with ha | ⟨hb, hc⟩
          · exact Or.inl (by rw [ha]; simp [hx])
          · exact Or.inr ⟨by simpa [hx] using hb, hc⟩

theorem syncSiblings_ok {f : Forest E} (wf : f.WF) (added changed : E → Bool) (nodes parents : List E)
    (sib : E → Option (Siblings E)) : ∃ sib',
      syncSiblings f added changed nodes parents sib = some sib' ∧
      ∀ x, (sib' x = sib x ∧ (x ∈ nodes → ∀ p, f.parent x = some p → added x = false ∧ changed p = false)) ∨
        ((∃ p, f.parent x = some p) ∧ sib' x = some (neigh f x)) := by
  obtain ⟨s1, d1, h1, h2⟩ := loop1_ok wf added changed nodes sib []
  obtain ⟨s2, h3, h4⟩ := loop2_ok wf (parents.flatMap fun p => (f.children p).map fun c => (p, c)) (by
    intro x hx
    simp only [List.mem_flatMap, List.mem_map] at hx
    obtain ⟨p, _, c, hc, rfl⟩ := hx
    exact (wf.mem_iff p c).mp hc) s1 d1
  refine ⟨s2, ?_, fun x => ?_⟩
  · unfold syncSiblings; rw [h1]; exact h3
  · rcases h4 x with h | ⟨_, hb, hc⟩
    · rw [h]
      rcases h2 x with h | ⟨_, hb, hc⟩
      · exact Or.inl h
      · exact Or.inr ⟨hb, hc⟩
    · exact Or.inr ⟨hb, hc⟩

theorem siblingRun_wf {keep : Forest E → Forest E → (E → Option (Siblings E)) → Prop} {f : Forest E}
    {r : Option (E → Option (Siblings E))} (h : SiblingRun keep f r) : f.WF := by
  cases h <;> assumption

theorem siblingRun_ok {keep : Forest E → Forest E → (E → Option (Siblings E)) → Prop} {f : Forest E}
    {r : Option (E → Option (Siblings E))} (h : SiblingRun keep f r) :
    ∃ sib, r = some sib ∧ ∀ e p s, f.parent e = some p → sib e = some s → Neighbours f e s := by
  induction h with
  | start f hf => exact ⟨_, rfl, by simp⟩
  | @frame f sib f' sib' added changed nodes parents hrun wf' hkeep hch hnodes hadd hold ih =>
    obtain ⟨s2, h1, h2⟩ := syncSiblings_ok wf' added changed nodes parents sib'
    refine ⟨s2, h1, fun e p s hp hs => ?_⟩
    rcases h2 e with ⟨ha, hb⟩ | ⟨_, hb⟩
    · rw [ha] at hs
      obtain ⟨hx, hy⟩ := hb (hnodes e (by rw [hs]; simp)) p hp
      have hmem : e ∈ f'.children p := (wf'.mem_iff p e).mpr hp
      have hsame : f'.children p = f.children p := by
        by_contra hne
        have := hch p (List.ne_nil_of_mem hmem) hne
        rw [hy] at this; cases this
      have hp0 : f.parent e = some p := by
        have wf := siblingRun_wf hrun
        exact (wf.mem_iff p e).mp (hsame ▸ hmem)
      obtain ⟨sib0, e0, ih⟩ := ih
      cases e0
      have hs0 : sib e = some s := by
        rcases hold e hx with h | h
        · rw [← h]; exact hs
        · rw [h] at hs; cases hs
      have := ih e p s hp0 hs0
      refine ⟨fun h => absurd (h.symm.trans hp) (by simp), fun p' l1 l2 hp' hl => ?_⟩
      rw [hp] at hp'; cases hp'
      exact this.2 p l1 l2 hp0 (hsame ▸ hl)
    · rw [hb] at hs; cases hs
      exact neigh_spec wf' hp

theorem siblingRun_orphan {f : Forest E} {r : Option (E → Option (Siblings E))}
    (h : SiblingRun NoOrphan f r) :
    ∀ sib, r = some sib → ∀ e s, f.parent e = none → sib e = some s → s = Siblings.default := by
  induction h with
  | start f hf => rintro _ ⟨⟩ e s _ h; cases h
  | @frame f sib f' sib' added changed nodes parents hrun wf' hkeep hch hnodes hadd hold ih =>
    intro s2' hs2 e s hp hs
    obtain ⟨s2, h1, h2⟩ := syncSiblings_ok wf' added changed nodes parents sib'
    rw [h1] at hs2; cases hs2
    rcases h2 e with ⟨ha, _⟩ | ⟨⟨p, hp'⟩, _⟩
    · rw [ha] at hs
      cases hx : added e with
      | true =>
        rcases hadd e hx with h | h
        · rw [h] at hs; cases hs; rfl
        · rw [h] at hs; cases hs
      | false =>
        rcases hold e hx with h | h
        · refine ih sib rfl e s ?_ (h ▸ hs)
          by_contra hne
          exact hkeep e (by rw [hs]; simp) hne hp
        · rw [h] at hs; cases hs
    · rw [hp] at hp'; cases hp'

/-! ## pseudo elements -/

/-- position class of a child -/
def rank (before after : Option E) (a : E) : Nat :=
  if before = some a then 0 else if after = some a then 2 else 1

theorem pseudoCmp_rank {before after : Option E} (h : ∀ a, before = some a → after ≠ some a) (a b : E) :
    pseudoCmp before after a b ≠ .gt ↔ rank before after a ≤ rank before after b := by
  have ha := h a
  have hb := h b
  unfold pseudoCmp rank
  by_cases h1 : before = some a
  · simp [h1]
  · by_cases h3 : before = some b
    · have h2 := hb h3
      have hne : b ≠ a := fun h => h1 (h ▸ h3)
      by_cases h4 : after = some a <;> simp [h2, h3, h4, hne, Ne.symm hne]
    · by_cases h2 : after = some b
      · simp only [h1, h2, h3]
        simp
        split <;> simp
      · have hne : after = some a → a ≠ b := fun h4 h => h2 (h ▸ h4)
        by_cases h4 : after = some a <;> simp [h1, h2, h3, h4]
        simp [hne h4]

theorem sorted_three {α} (r : α → Nat) (hr : ∀ a, r a ≤ 2) : ∀ l : List α, l.Pairwise (fun a b => r a ≤ r b) →
    l = l.filter (fun a => r a = 0) ++ l.filter (fun a => r a = 1) ++ l.filter (fun a => r a = 2) := by
  intro l
  induction l with
  | nil => simp
  | cons a l ih =>
    intro h
    obtain ⟨h1, h2⟩ := List.pairwise_cons.mp h
    have ih := ih h2
    have h3 := hr a
    obtain h | h | h : r a = 0 ∨ r a = 1 ∨ r a = 2 := by omega
    · simp only [List.filter_cons, h]
      simpa using ih
    · have e0 : l.filter (fun a => r a = 0) = [] := by
        rw [List.filter_eq_nil_iff]; intro b hb; have := h1 b hb; simp; omega
      simp only [List.filter_cons, h, e0]
      rw [e0] at ih
      simpa using ih
    · have e0 : l.filter (fun a => r a = 0) = [] := by
        rw [List.filter_eq_nil_iff]; intro b hb; have := h1 b hb; simp; omega
      have e1 : l.filter (fun a => r a = 1) = [] := by
        rw [List.filter_eq_nil_iff]; intro b hb; have := h1 b hb; simp; omega
      simp only [List.filter_cons, h, e0, e1]
      rw [e0, e1] at ih
      simpa using ih

theorem filter_some_eq {l : List E} (hnd : l.Nodup) {o : Option E} (ho : ∀ a, o = some a → a ∈ l) :
    l.filter (fun a => o = some a) = o.toList := by
  cases o with
  | none => simp
  | some x =>
    have hx := ho x rfl
    obtain ⟨l1, l2, rfl⟩ := List.append_of_mem hx
    have h1 : x ∉ l1 := fun hm => (List.disjoint_of_nodup_append hnd) hm (by simp)
    have h2 : x ∉ l2 := (List.nodup_cons.mp (List.nodup_append.mp hnd).2.1).1
    have f1 : l1.filter (fun a => some x = some a) = [] := by
      rw [List.filter_eq_nil_iff]; intro b hb; simp; rintro rfl; exact h1 hb
    have f2 : l2.filter (fun a => some x = some a) = [] := by
      rw [List.filter_eq_nil_iff]; intro b hb; simp; rintro rfl; exact h2 hb
    rw [List.filter_append, List.filter_cons, f1, f2]
    simp

theorem sortPseudo_eq (pseudo : E → Option Pseudo) (children : List E) (hnd : children.Nodup) :
    sortPseudo pseudo children =
      (children.find? fun c => pseudo c = some .before).toList ++
      children.filter (fun c => (children.find? fun c => pseudo c = some .before) ≠ some c ∧
        (children.find? fun c => pseudo c = some .after) ≠ some c) ++
      (children.find? fun c => pseudo c = some .after).toList := by
  unfold sortPseudo
  simp only
  generalize hb : (children.find? fun c => pseudo c = some .before) = before
  generalize ha : (children.find? fun c => pseudo c = some .after) = after
  have hbm : ∀ a, before = some a → a ∈ children := by
    rintro a rfl; exact List.mem_of_find?_eq_some hb
  have ham : ∀ a, after = some a → a ∈ children := by
    rintro a rfl; exact List.mem_of_find?_eq_some ha
  have hdis : ∀ a, before = some a → after ≠ some a := by
    rintro a rfl rfl
    have h1 := List.find?_some hb
    have h2 := List.find?_some ha
    simp only [decide_eq_true_eq] at h1 h2
    rw [h1] at h2; cases h2
  split
  · rename_i h
    simp only [Bool.and_eq_true, Option.isNone_iff_eq_none] at h
    obtain ⟨rfl, rfl⟩ := h
    simp
  · have hle : (fun a b => decide (pseudoCmp before after a b ≠ .gt)) =
        (fun a b => decide (rank before after a ≤ rank before after b)) := by
      funext a b
      rw [decide_eq_decide]
      exact pseudoCmp_rank hdis a b
    rw [hle]
    have htr : ∀ a b c : E, decide (rank before after a ≤ rank before after b) = true →
        decide (rank before after b ≤ rank before after c) = true →
        decide (rank before after a ≤ rank before after c) = true := by
      intro a b c; simp only [decide_eq_true_eq]; omega
    have hto : ∀ a b : E, (decide (rank before after a ≤ rank before after b) ||
        decide (rank before after b ≤ rank before after a)) = true := by
      intro a b; simp only [Bool.or_eq_true, decide_eq_true_eq]; omega
    have hr : ∀ a, rank before after a ≤ 2 := by
      intro a; unfold rank; split
      · omega
      · split <;> omega
    have hsorted := sorted_three (rank before after) hr _ ((List.pairwise_mergeSort htr hto children).imp
      (fun h => by simpa using h))
    have hfil : ∀ i, (children.mergeSort fun a b => decide (rank before after a ≤ rank before after b)).filter
        (fun a => rank before after a = i) = children.filter (fun a => rank before after a = i) := by
      intro i
      rw [filter_mergeSort _ htr hto]
      apply List.mergeSort_of_pairwise
      rw [List.pairwise_iff_forall_sublist]
      intro a b hab
      have h1 := (List.mem_filter.mp (hab.subset (a := a) (by simp))).2
      have h2 := (List.mem_filter.mp (hab.subset (a := b) (by simp))).2
      simp only [decide_eq_true_eq] at h1 h2 ⊢
      omega
    rw [hsorted, hfil, hfil, hfil]
    congr 1
    · congr 1
      · rw [← filter_some_eq hnd hbm]
        apply List.filter_congr
        intro a _
        unfold rank
        by_cases h : before = some a <;> simp [h]
        split <;> simp
      · apply List.filter_congr
        intro a _
        unfold rank
        by_cases h : before = some a <;> by_cases h' : after = some a <;> simp [h, h']
    · rw [← filter_some_eq hnd ham]
      apply List.filter_congr
      intro a _
      have := hdis a
      unfold rank
      by_cases h : before = some a <;> by_cases h' : after = some a <;> simp [h, h']
      · exact absurd h' (this h)

end Flair.Prepare
