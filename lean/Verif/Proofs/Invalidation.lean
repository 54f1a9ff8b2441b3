import Verif.Spec.Invalidation
import Verif.Proofs.Tree
import Verif.Tactics
/-! # Proofs about style invalidation -/
namespace Flair.Invalidation
set_option linter.unusedSectionVars false
open Flair.Tree Flair.Spec
variable {E D A : Type} [DecidableEq E]

/-- the elements whose data a program reads -/
def reads (w : World E D) : Prog D A → List E → List E
  | .ret _, _ => []
  | .read i k, hs => hs[i]?.toList ++ reads w (k (hs[i]?.map w.data)) hs
  | .isEmpty i k, hs => reads w (k ((hs[i]?.map fun x => (w.forest.children x).isEmpty).getD true)) hs
  | .move d i k, hs =>
    match hs[i]?.bind (w.step d) with
    | none => reads w (k false) hs
    | some y => reads w (k true) (hs ++ [y])

/-- a change of `x` gets `e` marked -/
def Watch (w : World E D) (fl : FlagMap E) (x e : E) : Prop :=
  x = e ∨ ((fl x).sib = true ∧ e ∈ uiSiblings w.forest x) ∨ ((fl x).desc = true ∧ e ∈ descendants w.forest x) ∨
    ((fl x).asc = true ∧ e ∈ ancestors w.forest x)

/-- flags only grow -/
def Le (a b : FlagMap E) : Prop :=
  ∀ x, ((a x).sib = true → (b x).sib = true) ∧ ((a x).desc = true → (b x).desc = true) ∧
    ((a x).asc = true → (b x).asc = true)

theorem Le.refl (a : FlagMap E) : Le a a := fun _ => ⟨id, id, id⟩
theorem Le.trans {a b c : FlagMap E} (h : Le a b) (h' : Le b c) : Le a c :=
  fun x => ⟨fun k => (h' x).1 ((h x).1 k), fun k => (h' x).2.1 ((h x).2.1 k), fun k => (h' x).2.2 ((h x).2.2 k)⟩

theorem Le_insert (fl : FlagMap E) (x : E) (f : Flags) : Le fl (fl.insert x f) := by
  intro y
  unfold FlagMap.insert
  split
  · simp only [Flags.union, Bool.or_eq_true]; tauto
  · exact ⟨id, id, id⟩

theorem Watch.mono {w : World E D} {a b : FlagMap E} (h : Le a b) {x e : E} (hw : Watch w a x e) : Watch w b x e := by
  rcases hw with h1 | ⟨h1, h2⟩ | ⟨h1, h2⟩ | ⟨h1, h2⟩
  · exact .inl h1
  · exact .inr (.inl ⟨(h x).1 h1, h2⟩)
  · exact .inr (.inr (.inl ⟨(h x).2.1 h1, h2⟩))
  · exact .inr (.inr (.inr ⟨(h x).2.2 h1, h2⟩))

theorem run_mono (w : World E D) (p : Prog D A) (hs : List E) (fl : FlagMap E) : Le fl (run w p hs fl).2 := by
  induction p generalizing hs fl with
  | ret a => exact Le.refl _
  | read i k ih => exact ih _ _ _
  | isEmpty i k ih => exact ih _ _ _
  | move d i k ih =>
    unfold run
    split
    · exact ih _ _ _
    · exact (Le_insert _ _ _).trans (ih _ _ _)

theorem run_flags_indep (w : World E D) (p : Prog D A) (hs : List E) (fl fl' : FlagMap E) :
    (run w p hs fl).1 = (run w p hs fl').1 := by
  induction p generalizing hs fl fl' with
  | ret a => rfl
  | read i k ih => exact ih _ _ _ _
  | isEmpty i k ih => exact ih _ _ _ _
  | move d i k ih =>
    unfold run
    split
    · exact ih _ _ _ _
    · exact ih _ _ _ _

/-- worlds that differ in the data only -/
def SameShape (w w' : World E D) : Prop :=
  w'.forest = w.forest ∧ w'.prev = w.prev ∧ w'.next = w.next ∧ w'.styled = w.styled

theorem step_congr {w w' : World E D} (h : SameShape w w') (d : Dir) (x : E) : w'.step d x = w.step d x := by
  obtain ⟨h1, h2, h3, h4⟩ := h
  unfold World.step
  rw [h4]
  cases d <;> simp only [World.target, h1, h2, h3]

theorem run_congr {w w' : World E D} (h : SameShape w w') (p : Prog D A) (hs : List E) (fl : FlagMap E)
    (hd : ∀ x ∈ reads w p hs, w'.data x = w.data x) :
    run w' p hs fl = run w p hs fl ∧ reads w' p hs = reads w p hs := by
  induction p generalizing hs fl with
  | ret a => exact ⟨rfl, rfl⟩
  | read i k ih =>
    have e : hs[i]?.map w'.data = hs[i]?.map w.data := by
      cases hi : hs[i]? with
      | none => rfl
      | some x =>
        simp only [Option.map_some, Option.some.injEq]
        apply hd
        unfold reads
        simp [hi]
    have := ih (hs[i]?.map w.data) hs fl (fun x hx => hd x (by unfold reads; simp [hx]))
    unfold run reads
    rw [e]
    exact ⟨this.1, by rw [this.2]⟩
  | isEmpty i k ih =>
    unfold run reads
    rw [h.1]
    exact ih _ hs fl (fun x hx => hd x hx)
  | move d i k ih =>
    have e : hs[i]?.bind (w'.step d) = hs[i]?.bind (w.step d) := by
      cases hs[i]? with
      | none => rfl
      | some x => exact step_congr h d x
    unfold reads at hd
    unfold run reads
    rw [e]
    cases hb : hs[i]?.bind (w.step d) with
    | none => rw [hb] at hd; exact ih _ hs fl hd
    | some y => rw [hb] at hd; exact ih _ _ _ hd

/-- the meaning of the kinds -/
def At (w : World E D) (e : E) : Kind → E → Prop
  | .self, x => x = e
  | .side, x => ∃ p, w.forest.parent x = some p ∧ w.forest.parent e = some p
  | .above, x => w.forest.Anc x e
  | .below, x => w.forest.Anc e x

theorem mem_descendants {f : Forest E} (wf : f.WF) (a e : E) : e ∈ descendants f a ↔ f.Anc a e := by
  obtain ⟨out, h1, h2⟩ := bfsCollect_inv wf a (f.nodes.length + 1) [] _ (bfsInv_new wf a) (by simp)
  unfold descendants
  rw [h1]
  simp only [List.nil_append] at h2
  simp only [Option.getD_some, List.mem_map, Prod.exists]
  constructor
  · rintro ⟨p, _, h, rfl⟩
    exact ((BfsInv_done_mem h2 p _).mp h).1
  · intro h
    obtain ⟨p, hp, _⟩ := Anc_iff_parent.mp h
    exact ⟨p, e, (BfsInv_done_mem h2 p e).mpr ⟨h, hp⟩, rfl⟩

theorem Anc_parent_left {f : Forest E} {x y e : E} (h : f.Anc x e) (hp : f.parent x = some y) : f.Anc y e :=
  Anc.trans' (Forest.Anc.child x hp) h

theorem go_sound {w : World E D} (hw : Consistent w) {e x y : E} {kd kd' : Kind} {d : Dir} (hat : At w e kd x)
    (hg : kd.go d = some kd') (hs : w.step d x = some y) (fl : FlagMap E) :
    At w e kd' y ∧ Watch w (fl.insert y d.flag) y e := by
  unfold World.step at hs
  rw [Option.filter_eq_some_iff] at hs
  obtain ⟨ht, _⟩ := hs
  have hdesc : w.forest.Anc y e → d = .parent → Watch w (fl.insert y d.flag) y e := by
    intro h hd
    subst hd
    exact .inr (.inr (.inl ⟨by simp [FlagMap.insert, Flags.union, Dir.flag], (mem_descendants hw.wf y e).mpr h⟩))
  have hasc : w.forest.Anc e y → d = .child → Watch w (fl.insert y d.flag) y e := by
    intro h hd
    subst hd
    exact .inr (.inr (.inr ⟨by simp [FlagMap.insert, Flags.union, Dir.flag], (mem_ancestors hw.wf y e).mpr h⟩))
  have hsib : At w e .side y → d = .prev ∨ d = .next → Watch w (fl.insert y d.flag) y e := by
    rintro ⟨p, h1, h2⟩ hd
    refine .inr (.inl ⟨by rcases hd with rfl | rfl <;> simp [FlagMap.insert, Flags.union, Dir.flag], ?_⟩)
    unfold uiSiblings
    rw [h1]
    exact (hw.wf.mem_iff p e).mpr h2
  cases d with
  | parent =>
    change w.forest.parent x = some y at ht
    cases kd with
    | self =>
      cases hg
      have : w.forest.Anc y e := by cases hat; exact .child _ ht
      exact ⟨this, hdesc this rfl⟩
    | side =>
      cases hg
      have : w.forest.Anc y e := by
        obtain ⟨p, h1, h2⟩ := hat
        rw [ht] at h1; cases h1
        exact .child _ h2
      exact ⟨this, hdesc this rfl⟩
    | above =>
      cases hg
      have : w.forest.Anc y e := Anc_parent_left hat ht
      exact ⟨this, hdesc this rfl⟩
    | below => cases hg
  | prev =>
    change w.prev x = some y at ht
    obtain ⟨p, h1, h2⟩ := hw.prev x y ht
    cases kd with
    | self =>
      cases hg
      have : At w e .side y := by cases hat; exact ⟨p, h2, h1⟩
      exact ⟨this, hsib this (.inl rfl)⟩
    | side =>
      cases hg
      have : At w e .side y := by
        obtain ⟨q, k1, k2⟩ := hat
        rw [h1] at k1; cases k1
        exact ⟨p, h2, k2⟩
      exact ⟨this, hsib this (.inl rfl)⟩
    | above => cases hg
    | below => cases hg
  | next =>
    change w.next x = some y at ht
    obtain ⟨p, h1, h2⟩ := hw.next x y ht
    cases kd with
    | self =>
      cases hg
      have : At w e .side y := by cases hat; exact ⟨p, h2, h1⟩
      exact ⟨this, hsib this (.inr rfl)⟩
    | side =>
      cases hg
      have : At w e .side y := by
        obtain ⟨q, k1, k2⟩ := hat
        rw [h1] at k1; cases k1
        exact ⟨p, h2, k2⟩
      exact ⟨this, hsib this (.inr rfl)⟩
    | above => cases hg
    | below => cases hg
  | child =>
    change (w.forest.children x).head? = some y at ht
    have hp : w.forest.parent y = some x := (hw.wf.mem_iff x y).mp (List.mem_of_mem_head? (by rw [ht]; rfl))
    cases kd with
    | self =>
      cases hg
      have : w.forest.Anc e y := by cases hat; exact .child _ hp
      exact ⟨this, hasc this rfl⟩
    | side => cases hg
    | above => cases hg
    | below =>
      cases hg
      have : w.forest.Anc e y := .step x y hat hp
      exact ⟨this, hasc this rfl⟩

theorem reads_watched {w : World E D} (hw : Consistent w) (e : E) (p : Prog D A) (ks : List Kind) (hs : List E)
    (fl : FlagMap E) (hk : List.Forall₂ (fun kd x => At w e kd x ∧ Watch w fl x e) ks hs) (hn : Noticed ks p) :
    ∀ x ∈ reads w p hs, Watch w (run w p hs fl).2 x e := by
  induction p generalizing ks hs fl with
  | ret a => intro x hx; cases hx
  | read i k ih =>
    intro x hx
    unfold reads at hx
    rw [List.mem_append] at hx
    rcases hx with hx | hx
    · cases hi : hs[i]? with
      | none => rw [hi] at hx; cases hx
      | some z =>
        rw [hi] at hx
        simp only [Option.toList_some, List.mem_singleton] at hx
        subst hx
        have hlt : i < hs.length := (List.getElem?_eq_some_iff.mp hi).1
        have hlt' : i < ks.length := hk.length_eq ▸ hlt
        have := (hk.get hlt' hlt).2
        simp only [List.get_eq_getElem] at this
        rw [(List.getElem?_eq_some_iff.mp hi).2] at this
        exact this.mono (run_mono _ _ _ _)
    · exact ih _ ks hs fl hk (hn _) x hx
  | isEmpty i k ih => exact ih _ ks hs fl hk (hn _)
  | move d i k ih =>
    intro x hx
    unfold reads at hx
    unfold run
    cases hb : hs[i]?.bind (w.step d) with
    | none =>
      rw [hb] at hx
      exact ih _ ks hs fl hk hn.1 x hx
    | some y =>
      rw [hb] at hx
      rw [Option.bind_eq_some_iff] at hb
      obtain ⟨z, hz, hzy⟩ := hb
      have hlt : i < hs.length := (List.getElem?_eq_some_iff.mp hz).1
      have hlt' : i < ks.length := hk.length_eq ▸ hlt
      have hzk := (hk.get hlt' hlt).1
      simp only [List.get_eq_getElem] at hzk
      rw [(List.getElem?_eq_some_iff.mp hz).2] at hzk
      obtain ⟨kd', hg, hn'⟩ := hn.2 ks[i] (List.getElem?_eq_getElem hlt')
      have hgo := go_sound hw hzk hg hzy fl
      refine ih _ (ks ++ [kd']) (hs ++ [y]) _ ?_ hn' x hx
      refine List.rel_append (hk.imp fun a b h => ⟨h.1, h.2.mono (Le_insert _ _ _)⟩) (.cons hgo .nil)

/-! ## histories -/

/-- all loaded sheets have only programs that are noticed -/
def RulesOk (rules : D → Option (Prog D A)) : Prop := ∀ d p, rules d = some p → Noticed [.self] p

/-- what holds between frames -/
structure Inv (w : World E D) (rules : D → Option (Prog D A)) (st : St E A) : Prop where
  unloaded : ∀ e ∈ w.styled, rules (w.data e) = none → st.marker e = true
  loaded : ∀ e ∈ w.styled, ∀ p, rules (w.data e) = some p → st.marker e = false →
    st.active e = some (run w p [e] st.flags).1 ∧ ∀ x ∈ reads w p [e], x ∈ w.styled ∧ Watch w st.flags x e

theorem reads_styled (w : World E D) (p : Prog D A) (hs : List E) (h : ∀ x ∈ hs, x ∈ w.styled) :
    ∀ x ∈ reads w p hs, x ∈ w.styled := by
  induction p generalizing hs with
  | ret a => intro x hx; cases hx
  | read i k ih =>
    intro x hx
    unfold reads at hx
    rw [List.mem_append] at hx
    rcases hx with hx | hx
    · exact h x (List.mem_of_getElem? (Option.mem_toList.mp hx))
    · exact ih _ hs h x hx
  | isEmpty i k ih => exact ih _ hs h
  | move d i k ih =>
    intro x hx
    unfold reads at hx
    cases hb : hs[i]?.bind (w.step d) with
    | none => rw [hb] at hx; exact ih _ hs h x hx
    | some y =>
      rw [hb] at hx
      refine ih _ _ ?_ x hx
      intro z hz
      rw [List.mem_append, List.mem_singleton] at hz
      rcases hz with hz | rfl
      · exact h z hz
      · rw [Option.bind_eq_some_iff] at hb
        obtain ⟨v, _, hv⟩ := hb
        unfold World.step at hv
        rw [Option.filter_eq_some_iff] at hv
        exact List.contains_iff_mem.mp hv.2

theorem calcOne_marker (w : World E D) (rules : D → Option (Prog D A)) (st : St E A) (e : E) :
    (calcOne w rules st e).marker = st.marker := by
  unfold calcOne
  split
  · split <;> rfl
  · rfl

theorem calcOne_mono (w : World E D) (rules : D → Option (Prog D A)) (st : St E A) (e : E) :
    Le st.flags (calcOne w rules st e).flags := by
  unfold calcOne
  split
  · split
    · exact Le.refl _
    · exact run_mono _ _ _ _
  · exact Le.refl _

theorem calc_marker (w : World E D) (rules : D → Option (Prog D A)) (order : List E) (st : St E A) :
    (order.foldl (calcOne w rules) st).marker = st.marker := by
  induction order generalizing st with
  | nil => rfl
  | cons e es ih => rw [List.foldl_cons, ih, calcOne_marker]

theorem calc_mono (w : World E D) (rules : D → Option (Prog D A)) (order : List E) (st : St E A) :
    Le st.flags (order.foldl (calcOne w rules) st).flags := by
  induction order generalizing st with
  | nil => exact Le.refl _
  | cons e es ih => exact (calcOne_mono w rules st e).trans (ih _)

/-- what the loop leaves for an entity `e` -/
theorem calc_active {w : World E D} (hw : Consistent w) {rules : D → Option (Prog D A)} (hr : RulesOk rules)
    (order : List E) (st : St E A) (e : E) :
    (st.marker e = false → (order.foldl (calcOne w rules) st).active e = st.active e) ∧
    (∀ p, rules (w.data e) = some p → st.marker e = true → e ∈ order →
      (order.foldl (calcOne w rules) st).active e = some (run w p [e] st.flags).1 ∧
      ∀ x ∈ reads w p [e], Watch w (order.foldl (calcOne w rules) st).flags x e) ∧
    (∀ p, rules (w.data e) = some p → st.active e = some (run w p [e] st.flags).1 →
      (order.foldl (calcOne w rules) st).active e = some (run w p [e] st.flags).1) := by
  induction order generalizing st with
  | nil => exact ⟨fun _ => rfl, fun p _ _ h => (by cases h), fun p _ h => h⟩
  | cons a as ih =>
    rw [List.foldl_cons]
    obtain ⟨i1, i2, i3⟩ := ih (calcOne w rules st a)
    rw [calcOne_marker] at i1 i2
    have hfl : ∀ p : Prog D A, (run w p [e] (calcOne w rules st a).flags).1 = (run w p [e] st.flags).1 :=
      fun p => run_flags_indep _ _ _ _ _
    have hkeep : a ≠ e → (calcOne w rules st a).active e = st.active e := by
      intro h
      unfold calcOne
      split
      · split
        · rfl
        · simp only; rw [if_neg (fun h' => h h'.symm)]
      · rfl
    have hset : ∀ p, rules (w.data e) = some p → st.marker e = true →
        (calcOne w rules st e).active e = some (run w p [e] st.flags).1 ∧
        ∀ x ∈ reads w p [e], Watch w (calcOne w rules st e).flags x e := by
      intro p hp hm
      unfold calcOne
      rw [if_pos hm, hp]
      dsimp only
      rw [if_pos rfl]
      refine ⟨rfl, ?_⟩
      exact reads_watched hw e p [.self] [e] st.flags (.cons ⟨rfl, .inl rfl⟩ .nil) (hr _ p hp)
    refine ⟨?_, ?_, ?_⟩
    · intro hm
      rw [i1 hm]
      by_cases h : a = e
      · subst h
        unfold calcOne
        rw [if_neg (by simp [hm])]
      · exact hkeep h
    · intro p hp hm ho
      by_cases h : a = e
      · subst h
        obtain ⟨h1, h2⟩ := hset p hp hm
        have := i3 p hp (by rw [h1, hfl])
        rw [hfl] at this
        exact ⟨this, fun x hx => (h2 x hx).mono (calc_mono _ _ _ _)⟩
      · have ho' : e ∈ as := by
          rcases List.mem_cons.mp ho with h' | h'
          · exact absurd h'.symm h
          · exact h'
        obtain ⟨h1, h2⟩ := i2 p hp hm ho'
        rw [hfl] at h1
        exact ⟨h1, h2⟩
    · intro p hp ha
      have : (calcOne w rules st a).active e = some (run w p [e] (calcOne w rules st a).flags).1 := by
        rw [hfl]
        by_cases h : a = e
        · subst h
          by_cases hm : st.marker a = true
          · exact (hset p hp hm).1
          · unfold calcOne
            rw [if_neg hm]; exact ha
        · rw [hkeep h]; exact ha
      have := i3 p hp this
      rw [hfl] at this
      exact this

theorem watch_reset {w : World E D} (hw : Consistent w) {reset : E → Bool}
    (ht : ∀ x p, w.forest.parent x = some p → reset x = reset p) {fl : FlagMap E} {x e : E} (h : Watch w fl x e) :
    reset x = reset e := by
  have hanc : ∀ {a b : E}, w.forest.Anc a b → reset a = reset b := by
    intro a b h
    induction h with
    | child b hb => exact (ht b a hb).symm
    | step p b _ hb ih => rw [ih]; exact (ht b p hb).symm
  rcases h with rfl | ⟨_, h⟩ | ⟨_, h⟩ | ⟨_, h⟩
  · rfl
  · unfold uiSiblings at h
    split at h
    · cases h
    · rename_i p hp
      rw [ht x p hp, ht e p ((hw.wf.mem_iff p e).mp h)]
  · exact hanc ((mem_descendants hw.wf x e).mp h)
  · exact (hanc ((mem_ancestors hw.wf x e).mp h)).symm

theorem consistent_after {w : World E D} (hw : Consistent w) (i : Input E D A) : Consistent (w.after i) :=
  ⟨hw.wf, hw.prev, hw.next⟩

theorem inv_frame {w : World E D} (hw : Consistent w) {rules : D → Option (Prog D A)} {st : St E A}
    (inv : Inv w rules st) (i : Input E D A) (ha : Allowed w rules i) (hr : RulesOk i.rules) :
    Inv (frame w st i).1 i.rules (frame w st i).2 ∧
    ∀ e ∈ w.styled, ∀ p, i.rules (i.data e) = some p →
      (frame w st i).2.active e = some (run (w.after i) p [e] st.flags).1 := by
  have hw' := consistent_after hw i
  have hshape : SameShape w (w.after i) := ⟨rfl, rfl, rfl, rfl⟩
  -- main fact
  have main : ∀ e ∈ w.styled, ∀ p, i.rules (i.data e) = some p →
      (frame w st i).2.active e = some (run (w.after i) p [e] st.flags).1 ∧
      ∀ x ∈ reads (w.after i) p [e], x ∈ w.styled ∧ Watch (w.after i) (frame w st i).2.flags x e := by
    intro e he p hp
    have hst : ∀ x ∈ reads (w.after i) p [e], x ∈ w.styled :=
      reads_styled (w.after i) p [e] (by simpa [World.after] using he)
    obtain ⟨c1, c2, _⟩ := calc_active hw' hr i.order (markChanged (w.after i) i.change (prepare i st)) e
    unfold frame
    simp only [clearMarkers]
    by_cases hm : (markChanged (w.after i) i.change (prepare i st)).marker e = true
    · obtain ⟨h1, h2⟩ := c2 p hp hm (ha.visited e he)
      rw [run_flags_indep _ _ _ _ st.flags] at h1
      exact ⟨h1, fun x hx => ⟨hst x hx, h2 x hx⟩⟩
    · rw [Bool.not_eq_true] at hm
      rw [c1 hm]
      -- not marked: nothing it read has changed
      unfold markChanged prepare at hm
      simp only [Bool.or_eq_false_iff] at hm
      obtain ⟨⟨⟨hm1, hm2⟩, hm3⟩, hm4⟩ := hm
      have hcont : w.styled.contains e = true := List.contains_iff_mem.mpr he
      simp only [World.after, hcont, Bool.true_and] at hm4
      rw [← Bool.not_eq_true, List.contains_iff_mem] at hm4
      have hmark : ∀ x ∈ w.styled, (i.change x).data = true → i.reset x = false → Watch w st.flags x e → False := by
        intro x hx hc hrx hwx
        apply hm4
        rw [List.mem_flatMap]
        refine ⟨x, List.mem_filter.mpr ⟨hx, by simp [hc]⟩, ?_⟩
        unfold marksOf
        simp only [hc, Bool.not_true, Bool.false_and, Bool.true_or, if_true, hrx, Bool.false_eq_true, if_false,
          List.mem_append, List.mem_singleton]
        rcases hwx with h | ⟨h, h'⟩ | ⟨h, h'⟩ | ⟨h, h'⟩
        · exact .inl (.inl (.inl h.symm))
        · exact .inl (.inl (.inr (by rw [if_pos h]; exact h')))
        · exact .inl (.inr (by rw [if_pos h]; exact h'))
        · exact .inr (by rw [if_pos h]; exact h')
      have hsame : ∀ x ∈ w.styled, Watch w st.flags x e → i.data x = w.data x := by
        intro x hx hwx
        by_contra hne
        exact hmark x hx (ha.detected x hx hne) (by rw [watch_reset hw ha.tree hwx]; exact hm2) hwx
      have hde : i.data e = w.data e := hsame e he (.inl rfl)
      have hold : rules (w.data e) = some p := by
        cases ho : rules (w.data e) with
        | none => rw [inv.unloaded e he ho] at hm1; cases hm1
        | some q =>
          by_contra hne
          rw [hde] at hp
          have := ha.sheets e he q ho (by rw [hp]; intro h; exact hne h.symm)
          rw [this] at hm2; cases hm2
      obtain ⟨l1, l2⟩ := inv.loaded e he p hold hm1
      have hdat : ∀ x ∈ reads w p [e], (w.after i).data x = w.data x :=
        fun x hx => hsame x (l2 x hx).1 (l2 x hx).2
      obtain ⟨r1, r2⟩ := run_congr hshape p [e] st.flags hdat
      refine ⟨?_, ?_⟩
      · show st.active e = _
        rw [l1, r1]
      · intro x hx
        refine ⟨hst x hx, ?_⟩
        rw [r2] at hx
        have hwx := (l2 x hx).2
        have hrx : i.reset x = false := by rw [watch_reset hw ha.tree hwx]; exact hm2
        have : Watch (w.after i) (markChanged (w.after i) i.change (prepare i st)).flags x e := by
          unfold markChanged prepare Watch
          simp only [hrx, Bool.false_eq_true, if_false]
          exact hwx
        exact this.mono (calc_mono _ _ _ _)
  refine ⟨⟨?_, ?_⟩, fun e he p hp => (main e he p hp).1⟩
  · intro e he hn
    have he : e ∈ w.styled := he
    have hn : i.rules (i.data e) = none := hn
    unfold frame
    simp only [clearMarkers, World.after, hn, Option.isNone_none, Bool.and_true, Bool.or_eq_true]
    left
    rw [calc_marker]
    unfold markChanged prepare
    simp only [Bool.or_eq_true]
    by_cases hde : i.data e = w.data e
    · left
      rw [hde] at hn
      cases ho : rules (w.data e) with
      | none => exact .inl (.inl (inv.unloaded e he ho))
      | some q => exact .inl (.inr (ha.sheets e he q ho (by rw [hn]; simp)))
    · right
      simp only [Bool.and_eq_true, List.contains_iff_mem]
      refine ⟨he, List.mem_flatMap.mpr ⟨e, List.mem_filter.mpr ⟨he, by simp [ha.detected e he hde]⟩, ?_⟩⟩
      unfold marksOf
      simp [ha.detected e he hde]
  · intro e he p hp _
    obtain ⟨h1, h2⟩ := main e he p hp
    refine ⟨?_, h2⟩
    rw [h1]
    rw [run_flags_indep _ _ _ st.flags (frame w st i).2.flags]
    rfl

theorem inv_frames {w : World E D} (hw : Consistent w) {rules : D → Option (Prog D A)} {st : St E A}
    (inv : Inv w rules st) (is : List (Input E D A)) (ha : AllowedFrom w rules is)
    (hr : ∀ i ∈ is, RulesOk i.rules) :
    Inv (frames (w, st) is).1 (lastRules rules is) (frames (w, st) is).2 ∧ SameShape w (frames (w, st) is).1 ∧
    (is ≠ [] → ∀ e ∈ w.styled, ∀ p, lastRules rules is ((frames (w, st) is).1.data e) = some p →
      ∀ fl, (frames (w, st) is).2.active e = some (run (frames (w, st) is).1 p [e] fl).1) := by
  induction is generalizing w rules st with
  | nil => exact ⟨inv, ⟨rfl, rfl, rfl, rfl⟩, fun h => absurd rfl h⟩
  | cons i is ih =>
    obtain ⟨h1, h2⟩ := inv_frame hw inv i ha.1 (hr i (by simp))
    obtain ⟨k1, k2, k3⟩ := ih (consistent_after hw i) h1 ha.2 (fun j hj => hr j (by simp [hj]))
    refine ⟨k1, k2, ?_⟩
    intro _ e he p hp fl
    cases is with
    | nil => rw [run_flags_indep _ _ _ fl st.flags]; exact h2 e he p hp
    | cons j js => exact k3 (by simp) e he p hp fl

/-! ## selectors -/

theorem step_parent_iff (w : World E D) (e x : E) : w.step .parent e = some x ↔ ParentOf w e x := by
  unfold World.step ParentOf
  rw [Option.filter_eq_some_iff, List.contains_iff_mem]
  rfl

theorem step_prev_iff (w : World E D) (e x : E) : w.step .prev e = some x ↔ PrevOf w e x := by
  unfold World.step PrevOf
  rw [Option.filter_eq_some_iff, List.contains_iff_mem]
  rfl

/-- where a walk looks -/
def WalkTo (w : World E D) (d : Dir) : Bool → E → E → Prop
  | false => fun x y => w.step d x = some y
  | true => Steps fun x y => w.step d x = some y

theorem reached_iff (w : World E D) (cb : Comb) (e x : E) : Reached w cb e x ↔ WalkTo w cb.dir cb.loops e x := by
  cases cb
  · exact (step_parent_iff w e x).symm
  · show Steps _ _ _ ↔ Steps _ _ _
    have : ParentOf w = fun x y => w.step .parent x = some y := by
      funext a b; exact propext (step_parent_iff w a b).symm
    rw [this]; rfl
  · exact (step_prev_iff w e x).symm
  · show Steps _ _ _ ↔ Steps _ _ _
    have : PrevOf w = fun x y => w.step .prev x = some y := by
      funext a b; exact propext (step_prev_iff w a b).symm
    rw [this]; rfl

theorem walkTo_none {w : World E D} {d : Dir} {x : E} (h : w.step d x = none) (b : Bool) (y : E) :
    ¬ WalkTo w d b x y := by
  cases b
  · intro k; change w.step d x = some y at k; rw [h] at k; cases k
  · intro k
    cases k with
    | one k => rw [h] at k; cases k
    | more k _ => rw [h] at k; cases k

/-- The outcome of a piece of matching: it goes on with `kt` or `kf`, with more handles. -/
def Ends (w : World E D) (p : Prog D A) (T : Prop) (kt kf : Nat → Prog D A) (hs : List E) (fl : FlagMap E) : Prop :=
  ∃ ext fl', (T ∧ run w p hs fl = run w (kt (hs ++ ext).length) (hs ++ ext) fl') ∨
    (¬ T ∧ run w p hs fl = run w (kf (hs ++ ext).length) (hs ++ ext) fl')

theorem walk_ends (w : World E D) (d : Dir) (loops : Bool)
    (test : Nat → Nat → (Nat → Prog D A) → Prog D A) (kt kf : Nat → Prog D A) (T : E → Prop)
    (htest : ∀ h len kf' hs fl y, hs.length = len → hs[h]? = some y → Ends w (test h len kf') (T y) kt kf' hs fl)
    (n : Nat) : ∀ (h len : Nat) (hs : List E) (fl : FlagMap E) (x : E), hs.length = len → hs[h]? = some x →
      (∀ l, List.IsChain (fun a b => w.step d a = some b) (x :: l) → l.length < n) →
      Ends w (walk d loops test kf n h len) (∃ y, WalkTo w d loops x y ∧ T y) kt kf hs fl := by
  induction n with
  | zero =>
    intro h len hs fl x _ _ hb
    exact absurd (hb [] (by simp)) (by simp)
  | succ n ih =>
    intro h len hs fl x hlen hx hb
    unfold walk
    cases hst : w.step d x with
    | none =>
      refine ⟨[], fl, .inr ⟨?_, ?_⟩⟩
      · rintro ⟨y, hy, _⟩
        exact walkTo_none hst loops y hy
      · rw [run, hx]
        simp [hst, hlen]
    | some y =>
      have hrun : run w (Prog.move d h fun found => if found = true then test len (len + 1) fun len' =>
            if loops = true then walk d loops test kf n len len' else kf len' else kf len) hs fl =
          run w (test len (len + 1) fun len' => if loops = true then walk d loops test kf n len len' else kf len')
            (hs ++ [y]) (fl.insert y d.flag) := by
        rw [run, hx]
        simp [hst]
      obtain ⟨ext, fl', hcase⟩ := htest len (len + 1)
        (fun len' => if loops = true then walk d loops test kf n len len' else kf len') (hs ++ [y])
        (fl.insert y d.flag) y (by simp [hlen]) (by simp [← hlen])
      rw [← hrun] at hcase
      rcases hcase with ⟨ht, hr⟩ | ⟨ht, hr⟩
      · refine ⟨y :: ext, fl', .inl ⟨⟨y, ?_, ht⟩, ?_⟩⟩
        · cases loops
          · exact hst
          · exact .one hst
        · rw [hr]; simp
      · cases loops with
        | false =>
          refine ⟨y :: ext, fl', .inr ⟨?_, ?_⟩⟩
          · rintro ⟨z, hz, hz'⟩
            change w.step d x = some z at hz
            rw [hst] at hz; cases hz
            exact ht hz'
          · rw [hr]; simp
        | true =>
          dsimp only at hr
          rw [if_pos (c := true = true) rfl (t := walk d true test kf n len (hs ++ [y] ++ ext).length)] at hr
          have hb' : ∀ l, List.IsChain (fun a b => w.step d a = some b) (y :: l) → l.length < n := by
            intro l hl
            have := hb (y :: l) (List.IsChain.cons_cons hst hl)
            simpa using this
          obtain ⟨ext2, fl2, hc2⟩ := ih len (hs ++ [y] ++ ext).length (hs ++ [y] ++ ext) fl' y rfl
            (by simp [← hlen]) hb'
          have hiff : (∃ z, WalkTo w d true x z ∧ T z) ↔ ∃ z, WalkTo w d true y z ∧ T z := by
            constructor
            · rintro ⟨z, hz, hz'⟩
              cases hz with
              | one k => rw [hst] at k; cases k; exact absurd hz' ht
              | more k k' => rw [hst] at k; cases k; exact ⟨z, k', hz'⟩
            · rintro ⟨z, hz, hz'⟩
              exact ⟨z, .more hst hz, hz'⟩
          rw [hiff]
          refine ⟨y :: (ext ++ ext2), fl2, ?_⟩
          rw [hr]
          simpa using hc2

theorem prog_ends {w : World E D} {n : Nat} (hb : Bounded w n) (s : Sel D) :
    ∀ (h len : Nat) (kt kf : Nat → Prog D A) (hs : List E) (fl : FlagMap E) (x : E), hs.length = len → hs[h]? = some x →
      Ends w (s.prog n h len kt kf) (Matches w s x) kt kf hs fl := by
  induction s with
  | subject c =>
    intro h len kt kf hs fl x hlen hx
    refine ⟨[], fl, ?_⟩
    unfold Sel.prog Matches
    rw [run, hx]
    cases hc : c (w.data x) <;> simp [hc, hlen]
  | comb l cb c ih =>
    intro h len kt kf hs fl x hlen hx
    cases hc : c (w.data x) with
    | false =>
      refine ⟨[], fl, .inr ⟨?_, ?_⟩⟩
      · rintro ⟨h, _⟩; rw [hc] at h; cases h
      · unfold Sel.prog
        rw [run, hx]
        simp [hc, hlen]
    | true =>
      have hrun : run w (Sel.prog n (.comb l cb c) h len kt kf) hs fl =
          run w (walk cb.dir cb.loops (fun h' len' kf' => l.prog n h' len' kt kf') kf n h len) hs fl := by
        conv => lhs; unfold Sel.prog
        rw [run, hx]
        simp [hc]
      have hiff : Matches w (.comb l cb c) x ↔ ∃ y, WalkTo w cb.dir cb.loops x y ∧ Matches w l y := by
        conv => lhs; unfold Matches
        simp only [hc, true_and, reached_iff]
      unfold Ends
      rw [hrun, hiff]
      exact walk_ends w cb.dir cb.loops _ kt kf (Matches w l)
        (fun h len kf' hs fl y h1 h2 => ih h len kt kf' hs fl y h1 h2) n h len hs fl x hlen hx
        (fun l' hl' => hb cb.dir x l' (by cases cb <;> simp [Comb.dir]) hl')

open Classical in
theorem sheetProg_result {w : World E D} {n : Nat} (hb : Bounded w n) (sels : List (Sel D × Nat)) :
    ∀ (acc : List Nat) (len : Nat) (hs : List E) (fl : FlagMap E) (e : E), hs.length = len → hs[0]? = some e →
      (run w (sheetProg n sels acc len) hs fl).1 =
        acc ++ (sels.filter fun s => decide (Matches w s.1 e)).map Prod.snd := by
  induction sels with
  | nil => intro acc len hs fl e _ _; simp [sheetProg, run]
  | cons s rest ih =>
    obtain ⟨s, id⟩ := s
    intro acc len hs fl e hlen he
    unfold sheetProg
    obtain ⟨ext, fl', hc⟩ := prog_ends hb s 0 len (fun len' => sheetProg n rest (acc ++ [id]) len')
      (fun len' => sheetProg n rest acc len') hs fl e hlen he
    have he' : (hs ++ ext)[0]? = some e := by
      rw [List.getElem?_append_left (List.getElem?_eq_some_iff.mp he).1]; exact he
    rcases hc with ⟨hm, hr⟩ | ⟨hm, hr⟩
    · rw [hr, ih _ _ _ _ e rfl he', List.filter_cons_of_pos (by simpa using hm)]
      simp
    · rw [hr, ih _ _ _ _ e rfl he', List.filter_cons_of_neg (by simpa using hm)]

theorem walk_noticed (d : Dir) (loops : Bool) (test : Nat → Nat → (Nat → Prog D A) → Prog D A) (kf : Nat → Prog D A)
    (ks0 : List Kind) (kd kd' : Kind) (hgo : kd.go d = some kd') (hgo' : loops = true → kd'.go d = some kd')
    (hkf : ∀ ext, Noticed (ks0 ++ ext) (kf (ks0 ++ ext).length))
    (htest : ∀ ext h kf', (ks0 ++ ext)[h]? = some kd' →
      (∀ ext', Noticed (ks0 ++ ext ++ ext') (kf' (ks0 ++ ext ++ ext').length)) →
      Noticed (ks0 ++ ext) (test h (ks0 ++ ext).length kf'))
    (n : Nat) : ∀ (ext : List Kind) (h : Nat), ((ks0 ++ ext)[h]? = some kd ∨ (loops = true ∧ (ks0 ++ ext)[h]? = some kd')) →
      Noticed (ks0 ++ ext) (walk d loops test kf n h (ks0 ++ ext).length) := by
  induction n with
  | zero => intro ext h _; exact hkf ext
  | succ n ih =>
    intro ext h hh
    unfold walk Noticed
    refine ⟨by simpa using hkf ext, ?_⟩
    intro k hk
    have hk' : k.go d = some kd' := by
      rcases hh with hh | ⟨hl, hh⟩
      · rw [hh] at hk; cases hk; exact hgo
      · rw [hh] at hk; cases hk; exact hgo' hl
    refine ⟨kd', hk', ?_⟩
    simp only [if_true]
    have := htest (ext ++ [kd']) (ks0 ++ ext).length
      (fun len' => if loops = true then walk d loops test kf n (ks0 ++ ext).length len' else kf len') (by simp) (by
        intro ext'
        cases loops with
        | false =>
          simp only [Bool.false_eq_true, if_false]
          have := hkf (ext ++ [kd'] ++ ext')
          simpa [List.append_assoc] using this
        | true =>
          simp only [if_true]
          have := ih (ext ++ [kd'] ++ ext') (ks0 ++ ext).length (.inr ⟨rfl, by
            rw [← List.append_assoc, ← List.append_assoc, List.getElem?_append_left (by simp)]
            simp⟩)
          simpa [List.append_assoc] using this)
    simpa [List.append_assoc, Nat.add_assoc] using this

theorem prog_noticed (n : Nat) (s : Sel D) : ∀ (ks : List Kind) (h : Nat) (kd : Kind) (kt kf : Nat → Prog D A),
    ks[h]? = some kd → ((kd = .self ∨ kd = .side) ∧ Tame s ∨ kd = .above ∧ OnlyUp s) →
    (∀ ext, Noticed (ks ++ ext) (kt (ks ++ ext).length)) → (∀ ext, Noticed (ks ++ ext) (kf (ks ++ ext).length)) →
    Noticed ks (s.prog n h ks.length kt kf) := by
  induction s with
  | subject c =>
    intro ks h kd kt kf _ _ ht hf
    unfold Sel.prog Noticed
    intro d
    dsimp only
    split
    · simpa using ht []
    · simpa using hf []
  | comb l cb c ih =>
    intro ks h kd kt kf hh hk ht hf
    unfold Sel.prog Noticed
    intro d
    dsimp only
    split
    · have key : ∃ kd', kd.go cb.dir = some kd' ∧ (cb.loops = true → kd'.go cb.dir = some kd') ∧
          ((kd' = .self ∨ kd' = .side) ∧ Tame l ∨ kd' = .above ∧ OnlyUp l) := by
        rcases hk with ⟨hk, hs⟩ | ⟨hk, hs⟩
        · cases cb <;> simp only [Tame, reduceCtorEq, or_self, if_false, or_true, true_or, if_true] at hs <;>
            rcases hk with rfl | rfl <;> simp_all [Kind.go, Comb.dir]
        · obtain ⟨hcb, hs⟩ := hs
          subst hk
          rcases hcb with rfl | rfl <;> simp_all [Kind.go, Comb.dir]
      obtain ⟨kd', g1, g2, g3⟩ := key
      have := walk_noticed cb.dir cb.loops (fun h' len' kf' => l.prog n h' len' kt kf') kf ks kd kd' g1 g2 hf
        (by
          intro ext h kf' he hkf'
          refine ih (ks ++ ext) h kd' kt kf' he g3 ?_ hkf'
          intro ext'
          have := ht (ext ++ ext')
          simpa [List.append_assoc] using this) n [] h (.inl (by simpa using hh))
      simpa using this
    · simpa using hf []

theorem sheetProg_noticed (n : Nat) (sels : List (Sel D × Nat)) (ht : ∀ s ∈ sels, Tame s.1) :
    ∀ (acc : List Nat) (ks : List Kind), ks[0]? = some .self → Noticed ks (sheetProg n sels acc ks.length) := by
  induction sels with
  | nil => intro acc ks _; trivial
  | cons s rest ih =>
    obtain ⟨s, id⟩ := s
    intro acc ks hk
    unfold sheetProg
    have h0 : ∀ ext : List Kind, (ks ++ ext)[0]? = some .self := by
      intro ext
      rw [List.getElem?_append_left (List.getElem?_eq_some_iff.mp hk).1]; exact hk
    refine prog_noticed n s ks 0 .self _ _ hk (.inl ⟨.inl rfl, ht (s, id) (by simp)⟩) ?_ ?_
    · intro ext
      exact ih (fun s hs => ht s (by simp [hs])) _ _ (h0 ext)
    · intro ext
      exact ih (fun s hs => ht s (by simp [hs])) _ _ (h0 ext)

end Flair.Invalidation
