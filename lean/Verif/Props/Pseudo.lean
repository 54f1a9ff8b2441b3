import Verif.Props.Prepare
import Verif.Spec.Pseudo
/-!
# C99 : pseudo element support
-/
namespace Flair.Props
open Flair.Pseudo Flair.Spec
open Flair.Prepare (Pseudo sortPseudo)
variable {E : Type} [DecidableEq E]

private def FramedL (C : List E) (ps : E → Option Pseudo) (mid : List E) : Prop :=
  ∃ b a, C = b :: mid ++ [a] ∧ ps b = some .before ∧ ps a = some .after ∧ ∀ c ∈ mid, ps c = none

private def OneEach (C : List E) (ps : E → Option Pseudo) : Prop :=
  ∃ b a, b ∈ C ∧ a ∈ C ∧ ps b = some .before ∧ ps a = some .after ∧
    (∀ c ∈ C, ps c = some .before → c = b) ∧ (∀ c ∈ C, ps c = some .after → c = a)

private structure L (C : List E) (ps : E → Option Pseudo) (s ch : Bool) (D : List E) : Prop where
  nodup : C.Nodup
  plain : C.filter (fun c => ps c = none) = D
  two : ((∀ c ∈ C, ps c = none) ∧ s = false) ∨ OneEach C ps
  calm : s = true → ch = false → FramedL C ps D

private theorem L_congr {C D : List E} {ps ps' : E → Option Pseudo} {s ch : Bool} (h : ∀ c ∈ C, ps c = ps' c)
    (l : L C ps s ch D) : L C ps' s ch D := by
  obtain ⟨h1, h2, h3, h4⟩ := l
  refine ⟨h1, ?_, ?_, ?_⟩
  · rw [← h2]; exact List.filter_congr fun c hc => by rw [h c hc]
  · rcases h3 with ⟨a, b⟩ | ⟨b, a, hb, ha, pb, pa, ub, ua⟩
    · exact .inl ⟨fun c hc => by rw [← h c hc]; exact a c hc, b⟩
    · exact .inr ⟨b, a, hb, ha, h b hb ▸ pb, h a ha ▸ pa, fun c hc e => ub c hc (h c hc ▸ e),
        fun c hc e => ua c hc (h c hc ▸ e)⟩
  · intro x y
    obtain ⟨b, a, e, pb, pa, hm⟩ := h4 x y
    exact ⟨b, a, e, h b (by simp [e]) ▸ pb, h a (by simp [e]) ▸ pa, fun c hc => h c (by simp [e, hc]) ▸ hm c hc⟩

private theorem L_detach {C D : List E} {ps : E → Option Pseudo} {s ch : Bool} {x : E} (hx : ps x = none)
    (l : L C ps s ch D) : L (C.filter (· ≠ x)) ps s (ch || decide (x ∈ C)) (D.filter (· ≠ x)) := by
  obtain ⟨h1, h2, h3, h4⟩ := l
  refine ⟨h1.filter _, ?_, ?_, ?_⟩
  · rw [← h2, List.filter_filter, List.filter_filter]
    exact List.filter_congr fun c _ => Bool.and_comm _ _
  · rcases h3 with ⟨a, b⟩ | ⟨b, a, hb, ha, pb, pa, ub, ua⟩
    · exact .inl ⟨fun c hc => a c (List.mem_filter.1 hc).1, b⟩
    · refine .inr ⟨b, a, List.mem_filter.2 ⟨hb, ?_⟩, List.mem_filter.2 ⟨ha, ?_⟩, pb, pa,
        fun c hc => ub c (List.mem_filter.1 hc).1, fun c hc => ua c (List.mem_filter.1 hc).1⟩
      · simp only [decide_eq_true_eq, ne_eq]; rintro rfl; rw [hx] at pb; cases pb
      · simp only [decide_eq_true_eq, ne_eq]; rintro rfl; rw [hx] at pa; cases pa
  · intro hs hc
    simp only [Bool.or_eq_false_iff, decide_eq_false_iff_not] at hc
    have e1 : C.filter (· ≠ x) = C := List.filter_eq_self.2 fun c hc' => by
      simp only [decide_eq_true_eq, ne_eq]; rintro rfl; exact hc.2 hc'
    have e2 : D.filter (· ≠ x) = D := List.filter_eq_self.2 fun c hc' => by
      simp only [decide_eq_true_eq, ne_eq]; rintro rfl
      rw [← h2] at hc'; exact hc.2 (List.mem_filter.1 hc').1
    rw [e1, e2]
    exact h4 hs hc.1

private theorem L_add {C C' D D' : List E} {ps : E → Option Pseudo} {s ch : Bool} {x : E} (hx : ps x = none)
    (hp : C'.Perm (x :: C)) (hn : x ∉ C) (he : C'.filter (fun c => ps c = none) = D')
    (l : L C ps s ch D) : L C' ps s true D' := by
  obtain ⟨h1, h2, h3, h4⟩ := l
  have hm : ∀ c, c ∈ C' ↔ c = x ∨ c ∈ C := fun c => by rw [hp.mem_iff, List.mem_cons]
  refine ⟨hp.nodup_iff.2 (List.nodup_cons.2 ⟨hn, h1⟩), he, ?_, fun _ h => by cases h⟩
  rcases h3 with ⟨a, b⟩ | ⟨b, a, hb, ha, pb, pa, ub, ua⟩
  · exact .inl ⟨fun c hc => by rcases (hm c).1 hc with rfl | hc; exacts [hx, a c hc], b⟩
  · refine .inr ⟨b, a, (hm _).2 (.inr hb), (hm _).2 (.inr ha), pb, pa, ?_, ?_⟩
    · intro c hc e
      rcases (hm c).1 hc with rfl | hc
      · rw [hx] at e; cases e
      · exact ub c hc e
    · intro c hc e
      rcases (hm c).1 hc with rfl | hc
      · rw [hx] at e; cases e
      · exact ua c hc e

private theorem L_append {C D : List E} {ps : E → Option Pseudo} {s ch : Bool} {x : E} (hx : ps x = none) (hn : x ∉ C)
    (l : L C ps s ch D) : L (C ++ [x]) ps s true (D ++ [x]) :=
  L_add hx (List.perm_append_singleton x C) hn (by rw [List.filter_append, l.plain]; simp [hx]) l

private theorem L_place {C D : List E} {ps : E → Option Pseudo} {s ch : Bool} {x : E} {i : Nat} (hx : ps x = none)
    (hn : x ∉ C) (hi : (∃ c ∈ C, ps c ≠ none) → i = 0) (l : L C ps s ch D) :
    L (C.insertIdx (min i C.length) x) ps s true (D.insertIdx (min i D.length) x) := by
  refine L_add hx (List.perm_insertIdx _ _ (Nat.min_le_right _ _)) hn ?_ l
  by_cases h : ∃ c ∈ C, ps c ≠ none
  · obtain rfl := hi h
    simp only [Nat.zero_min, List.insertIdx_zero, List.filter_cons, hx, decide_true, if_true]
    rw [l.plain]
  · push Not at h
    have e : C = D := by rw [← l.plain]; exact (List.filter_eq_self.2 fun c hc => by simp [h c hc]).symm
    subst e
    refine List.filter_eq_self.2 fun c hc => ?_
    rcases (List.mem_insertIdx (Nat.min_le_right _ _)).1 hc with rfl | hc
    · simp [hx]
    · simp [h c hc]

private theorem L_clear {C D : List E} {ps : E → Option Pseudo} {s ch : Bool} (hn : ∀ c ∈ C, ps c = none)
    (l : L C ps s ch D) : L ([] : List E) ps s true [] := by
  refine ⟨List.nodup_nil, rfl, .inl ⟨by simp, ?_⟩, fun _ h => by cases h⟩
  rcases l.two with ⟨_, h⟩ | ⟨b, a, hb, ha, pb, pa, _⟩
  · exact h
  · rw [hn b hb] at pb; cases pb

private theorem L_support {C D : List E} {ps ps' : E → Option Pseudo} {s ch : Bool} {b a : E} (hn : ∀ c ∈ C, ps c = none)
    (hb : b ∉ C) (ha : a ∉ C) (hba : b ≠ a) (h' : ∀ c ∈ C, ps' c = ps c) (pb : ps' b = some .before)
    (pa : ps' a = some .after) (l : L C ps s ch D) : L (C ++ [b] ++ [a]) ps' true true D := by
  refine ⟨?_, ?_, .inr ⟨b, a, by simp, by simp, pb, pa, ?_, ?_⟩, fun _ h => by cases h⟩
  · rw [List.append_assoc, List.nodup_append]
    refine ⟨l.nodup, by simpa using hba, ?_⟩
    intro x hx y hy
    simp only [List.cons_append, List.nil_append, List.mem_cons, List.not_mem_nil, or_false] at hy
    rintro rfl
    rcases hy with rfl | rfl
    exacts [hb hx, ha hx]
  · rw [← l.plain, List.filter_append, List.filter_append, List.filter_cons, List.filter_cons, pb, pa]
    simp only [reduceCtorEq, decide_false, Bool.false_eq_true, if_false, List.filter_nil, List.append_nil]
    exact List.filter_congr fun c hc => by rw [h' c hc]
  · intro c hc e
    simp only [List.mem_append, List.mem_cons, List.not_mem_nil, or_false] at hc
    rcases hc with (hc | rfl) | rfl
    · rw [h' c hc, hn c hc] at e; cases e
    · rfl
    · rw [pa] at e; cases e
  · intro c hc e
    simp only [List.mem_append, List.mem_cons, List.not_mem_nil, or_false] at hc
    rcases hc with (hc | rfl) | rfl
    · rw [h' c hc, hn c hc] at e; cases e
    · rw [pb] at e; cases e
    · rfl

private theorem L_sorted {C D : List E} {ps : E → Option Pseudo} (h : OneEach C ps) (l : C.Nodup)
    (hd : C.filter (fun c => ps c = none) = D) : FramedL (sortPseudo ps C) ps D := by
  obtain ⟨b, a, hb, ha, pb, pa, ub, ua⟩ := h
  obtain ⟨hp, h1, h2, h3, _⟩ := C21_pseudo_elements ps C l
  have h1 := h1 b hb pb ub
  have h2 := h2 a ha pa ua
  have hba : b ≠ a := by rintro rfl; rw [pb] at pa; cases pa
  rw [hd] at h3
  have hnd := hp.nodup_iff.2 l
  have hm : ∀ c ∈ sortPseudo ps C, c ∈ C := fun c hc => hp.mem_iff.1 hc
  generalize sortPseudo ps C = S at *
  match S, h1 with
  | _ :: T, h1 =>
    cases h1
    rcases List.eq_nil_or_concat T with rfl | ⟨T', z, rfl⟩
    · simp only [List.getLast?_singleton, Option.some.injEq] at h2
      exact absurd h2 hba
    · have : z = a := by
        rw [List.concat_eq_append, ← List.cons_append, List.getLast?_concat] at h2
        exact Option.some.inj h2
      subst this
      rw [List.concat_eq_append] at *
      have hT : ∀ c ∈ T', ps c = none := by
        intro c hc
        have hcC := hm c (by simp [hc])
        rw [List.nodup_cons, List.nodup_append] at hnd
        match e : ps c with
        | none => rfl
        | some .before =>
          have := ub c hcC e
          subst this
          exact absurd (List.mem_append_left _ hc) hnd.1
        | some .after =>
          have := ua c hcC e
          subst this
          exact absurd rfl (hnd.2.2.2 c hc c (by simp))
      refine ⟨b, z, ?_, pb, pa, ?_⟩
      · rw [← h3, List.filter_cons, pb, List.filter_append, List.filter_cons, pa]
        simp only [reduceCtorEq, decide_false, Bool.false_eq_true, if_false, List.filter_nil, List.append_nil]
        rw [List.filter_eq_self.2 fun c hc => by simp [hT c hc]]
        rfl
      · intro c hc
        rw [← h3] at hc
        simpa using (List.mem_filter.1 hc).2

private theorem L_frame {C D : List E} {ps : E → Option Pseudo} {s ch : Bool} (l : L C ps s ch D) :
    L (if s && ch then sortPseudo ps C else C) ps s false D := by
  by_cases h : (s && ch) = true
  · rw [if_pos h]
    simp only [Bool.and_eq_true] at h
    obtain ⟨rfl, rfl⟩ := h
    rcases l.two with ⟨_, h⟩ | h
    · cases h
    · obtain ⟨hp, h1, h2, h3, _⟩ := C21_pseudo_elements ps C l.nodup
      refine ⟨hp.nodup_iff.2 l.nodup, by rw [h3, l.plain], .inr ?_, fun _ _ => L_sorted h l.nodup l.plain⟩
      obtain ⟨b, a, hb, ha, pb, pa, ub, ua⟩ := h
      exact ⟨b, a, hp.mem_iff.2 hb, hp.mem_iff.2 ha, pb, pa, fun c hc => ub c (hp.mem_iff.1 hc),
        fun c hc => ua c (hp.mem_iff.1 hc)⟩
  · rw [if_neg h]
    refine ⟨l.nodup, l.plain, l.two, fun hs _ => l.calm hs ?_⟩
    subst hs
    simpa using h

private structure Inv (e : E) (w v : PWorld E) : Prop where
  known : ∀ p, ∀ c ∈ (w.el p).children, c ∈ w.known
  pseudo : ∀ x, w.pseudo x ≠ none → x ∈ w.known
  loc : L (w.el e).children w.pseudo (w.el e).support (w.el e).changed (v.el e).children
  plain : (v.el e).support = false
  fresh : e ∉ w.known → (v.el e).children = []

private theorem inv_detach {e : E} {w v : PWorld E} (i : Inv e w v) {x : E} (hx : w.pseudo x = none) :
    Inv e (detach w x) (detach v x) :=
  ⟨fun p c hc => i.known p c (List.mem_filter.1 hc).1, i.pseudo, L_detach hx i.loc, i.plain,
    fun h => by simp only [detach, i.fresh h, List.filter_nil]⟩

private theorem inv_attach {e : E} {w v : PWorld E} (i : Inv e w v) {p x : E} (hpk : p ∈ w.known) (hk : x ∈ w.known)
    (hx : w.pseudo x = none) (hn : x ∉ (w.el e).children) : Inv e (attach w p x) (attach v p x) := by
  refine ⟨?_, i.pseudo, ?_, ?_, ?_⟩
  · intro q c hc
    simp only [attach, PWorld.set] at hc ⊢
    split at hc
    · simp only [List.mem_append, List.mem_cons, List.not_mem_nil, or_false] at hc
      rcases hc with hc | rfl
      exacts [i.known _ c hc, hk]
    · exact i.known _ c hc
  · simp only [attach, PWorld.set]
    by_cases h : e = p
    · subst h
      simp only [if_true]
      exact L_append hx hn i.loc
    · simp only [if_neg h]
      exact i.loc
  · simp only [attach, PWorld.set]
    split
    · rename_i h; subst h; exact i.plain
    · exact i.plain
  · intro h
    have : e ≠ p := fun h' => h (h' ▸ hpk)
    simp only [attach, PWorld.set, if_neg this]
    exact i.fresh h

private theorem inv_place {e : E} {w v : PWorld E} (i : Inv e w v) {p x : E} {n : Nat} (hpk : p ∈ w.known) (hk : x ∈ w.known)
    (hx : w.pseudo x = none) (hn : x ∉ (w.el e).children)
    (hi : p = e → (∃ c ∈ (w.el e).children, w.pseudo c ≠ none) → n = 0) : Inv e (place w p n x) (place v p n x) := by
  refine ⟨?_, i.pseudo, ?_, ?_, ?_⟩
  · intro q c hc
    simp only [place, PWorld.set] at hc ⊢
    split at hc
    · rcases (List.mem_insertIdx (Nat.min_le_right _ _)).1 hc with rfl | hc
      exacts [hk, i.known _ c hc]
    · exact i.known _ c hc
  · simp only [place, PWorld.set]
    by_cases h : e = p
    · subst h
      simp only [if_true]
      exact L_place hx hn (hi rfl) i.loc
    · simp only [if_neg h]
      exact i.loc
  · simp only [place, PWorld.set]
    split
    · rename_i h; subst h; exact i.plain
    · exact i.plain
  · intro h
    have : e ≠ p := fun h' => h (h' ▸ hpk)
    simp only [place, PWorld.set, if_neg this]
    exact i.fresh h

private theorem fresh_none {e : E} {w v : PWorld E} (i : Inv e w v) {x : E} (hx : x ∉ w.known) : w.pseudo x = none := by
  by_contra h
  exact hx (i.pseudo x h)

private theorem fresh_child {e : E} {w v : PWorld E} (i : Inv e w v) {x p : E} (hx : x ∉ w.known) :
    x ∉ (w.el p).children := fun h => hx (i.known p x h)

/-- An entity other than `e` is made, not yet a child. -/
private theorem inv_make {e : E} {w v : PWorld E} (i : Inv e w v) {x : E} (hx : x ∉ w.known) (t b : Bool) :
    Inv e (spawn w x { text := t, block := b } none none) (spawn v x { text := t, block := b } none none) := by
  have hps : (fun y => if y = x then none else w.pseudo y) = w.pseudo := by
    funext y
    split
    · rename_i h; subst h; exact (fresh_none i hx).symm
    · rfl
  refine ⟨?_, ?_, ?_, ?_, ?_⟩
  · intro q c hc
    simp only [spawn, PWorld.set] at hc ⊢
    split at hc
    · cases hc
    · exact List.mem_cons_of_mem _ (i.known _ c hc)
  · intro y hy
    simp only [spawn, PWorld.set] at hy ⊢
    refine List.mem_cons_of_mem _ (i.pseudo y ?_)
    rw [← hps]
    exact hy
  · simp only [spawn, PWorld.set]
    rw [hps]
    by_cases h : e = x
    · subst h
      simp only [if_true]
      exact ⟨List.nodup_nil, rfl, .inl ⟨by simp, rfl⟩, fun h => by cases h⟩
    · simp only [if_neg h]
      exact i.loc
  · simp only [spawn, PWorld.set]
    split
    · rfl
    · exact i.plain
  · intro h
    simp only [spawn, PWorld.set, List.mem_cons, not_or] at h ⊢
    rw [if_neg h.1]
    exact i.fresh h.2

private theorem two_el (w : PWorld E) {q b a : E} (hq : q ∈ w.known) (hb : b ∉ w.known) (ha : a ∉ w.known) (hba : b ≠ a)
    (n : El E) (y : E) :
    (spawn (spawn (w.set q { w.el q with support := true }) b n (some .before) (some q)) a n (some .after) (some q)).el y =
      if y = q then { w.el q with support := true, children := (w.el q).children ++ [b] ++ [a], changed := true }
      else if y = a ∨ y = b then n else w.el y := by
  have hqb : q ≠ b := fun h => hb (h ▸ hq)
  have hqa : q ≠ a := fun h => ha (h ▸ hq)
  simp only [spawn, attach, PWorld.set, if_true, if_neg hqa, if_neg hqb]
  by_cases h1 : y = q
  · simp [h1]
  · by_cases h2 : y = a
    · simp [h2, hqa.symm]
    · by_cases h3 : y = b
      · simp [h3, hqb.symm, hba]
      · simp [h1, h2, h3]

private theorem two_pseudo (w : PWorld E) (q b a : E) (n : El E) (y : E) :
    (spawn (spawn (w.set q { w.el q with support := true }) b n (some .before) (some q)) a n
      (some .after) (some q)).pseudo y = if y = a then some .after else if y = b then some .before else w.pseudo y := rfl

private theorem two_known (w : PWorld E) (q b a : E) (n : El E) :
    (spawn (spawn (w.set q { w.el q with support := true }) b n (some .before) (some q)) a n
      (some .after) (some q)).known = a :: b :: w.known := rfl

private theorem inv_step {e : E} {w v : PWorld E} (i : Inv e w v) (o : Op E) (hp : OpPossible w o) (hl : OpPolite w e o) :
    Inv e (step w o) (run v (withoutSupport [o])) := by
  cases o with
  | frame =>
    change Inv e _ (step v .frame)
    refine ⟨?_, i.pseudo, ?_, i.plain, ?_⟩
    · intro p c hc
      simp only [step, sorted] at hc
      split at hc
      · have hs : ∀ C : List E, (sortPseudo w.pseudo C).Perm C := by
          intro C; unfold sortPseudo; dsimp only; split; exacts [.refl _, List.mergeSort_perm _ _]
        exact i.known p c ((hs _).mem_iff.1 hc)
      · exact i.known p c hc
    · have := L_frame i.loc
      simp only [step, sorted, i.plain, Bool.false_and, Bool.false_eq_true, if_false]
      exact this
    · intro h
      simp only [step, sorted, i.plain, Bool.false_and, Bool.false_eq_true, if_false]
      exact i.fresh h
  | remove x => exact inv_detach i hl
  | append p x =>
    exact inv_attach (inv_detach i hl) hp.1 hp.2 hl (by simp [detach])
  | insertAt p n x =>
    refine inv_place (inv_detach i hl.1) hp.1 hp.2 hl.1 (by simp [detach]) ?_
    rintro he ⟨c, hc, hc'⟩
    exact hl.2 he ⟨c, (List.mem_filter.1 hc).1, hc'⟩
  | removeAll p =>
    change Inv e _ (step v (.removeAll p))
    refine ⟨?_, i.pseudo, ?_, ?_, ?_⟩
    · intro q c hc
      simp only [step, PWorld.set] at hc
      split at hc
      · cases hc
      · exact i.known q c hc
    · simp only [step, PWorld.set]
      by_cases h : e = p
      · subst h
        simp only [if_true]
        exact L_clear (hl rfl) i.loc
      · simp only [if_neg h]; exact i.loc
    · simp only [step, PWorld.set]
      split
      · rename_i h; subst h; exact i.plain
      · exact i.plain
    · intro h
      simp only [step, PWorld.set]
      split
      · rfl
      · exact i.fresh h
  | components q t b =>
    change Inv e _ (step v (.components q t b))
    have hc : ∀ (u : PWorld E) y, ((step u (.components q t b)).el y).children = (u.el y).children ∧
        ((step u (.components q t b)).el y).changed = (u.el y).changed ∧
        ((step u (.components q t b)).el y).support = (u.el y).support := by
      intro u y
      simp only [step, PWorld.set]
      split
      · rename_i h; subst h; exact ⟨rfl, rfl, rfl⟩
      · exact ⟨rfl, rfl, rfl⟩
    refine ⟨?_, i.pseudo, ?_, ?_, fun h => by rw [(hc v e).1]; exact i.fresh h⟩
    · intro y c h
      rw [(hc w y).1] at h
      exact i.known y c h
    · rw [(hc w e).1, (hc w e).2.1, (hc w e).2.2, (hc v e).1]
      exact i.loc
    · rw [(hc v e).2.2]; exact i.plain
  | unsupport q =>
    change Inv e _ (step v (.unsupport q))
    have hc : ∀ (u : PWorld E) y, ((step u (.unsupport q)).el y).children = (u.el y).children ∧
        ((step u (.unsupport q)).el y).changed = (u.el y).changed ∧
        ((step u (.unsupport q)).el y).support = (decide (y ≠ q) && (u.el y).support) := by
      intro u y
      simp only [step, PWorld.set]
      split
      · rename_i h; subst h; simp
      · rename_i h; simp [h]
    refine ⟨?_, i.pseudo, ?_, ?_, fun h => by rw [(hc v e).1]; exact i.fresh h⟩
    · intro y c h
      rw [(hc w y).1] at h
      exact i.known y c h
    · rw [(hc w e).1, (hc w e).2.1, (hc w e).2.2, (hc v e).1]
      obtain ⟨h1, h2, h3, h4⟩ := i.loc
      refine ⟨h1, h2, ?_, ?_⟩
      · rcases h3 with ⟨a, b⟩ | h
        · exact .inl ⟨a, by simp [b]⟩
        · exact .inr h
      · intro hs
        simp only [Bool.and_eq_true] at hs
        exact h4 hs.2
    · rw [(hc v e).2.2, i.plain, Bool.and_false]
  | spawn x t b parent =>
    change Inv e _ (step v (.spawn x t b parent))
    have h := inv_make i hp.1 t b
    cases parent with
    | none => exact h
    | some p =>
      refine inv_attach h (by simp [spawn, PWorld.set, hp.2 p rfl]) (by simp [spawn]) (by simp [spawn]) ?_
      simp only [spawn, PWorld.set]
      split
      · simp
      · exact fresh_child i hp.1
  | support q b a =>
    obtain ⟨hq, hb, ha, hba⟩ := hp
    change Inv e _ v
    simp only [step]
    by_cases hk : (w.el q).text = true ∨ (w.el q).block = true
    · have hh : ∃ n : El E, n.children = [] ∧ n.support = false ∧
          hook (w.set q { w.el q with support := true }) q b a =
            spawn (spawn (w.set q { w.el q with support := true }) b n (some .before) (some q)) a n
              (some .after) (some q) := by
        simp only [hook, PWorld.set, if_true]
        by_cases ht : (w.el q).text = true
        · exact ⟨{ text := true }, rfl, rfl, by rw [if_pos ht]⟩
        · exact ⟨{ block := true }, rfl, rfl, by rw [if_neg ht, if_pos (hk.resolve_left ht)]⟩
      obtain ⟨n, hn, hns, hw⟩ := hh
      rw [hw]
      have hch := two_el w hq hb ha hba n
      have hps := two_pseudo w q b a n
      have hkn := two_known w q b a n
      generalize spawn (spawn (w.set q { w.el q with support := true }) b n (some .before) (some q)) a n
              (some .after) (some q) = w' at hch hps hkn ⊢
      have hold : ∀ c ∈ w.known, w'.pseudo c = w.pseudo c := by
        intro c hc
        have h1 : c ≠ a := fun h => ha (h ▸ hc)
        have h2 : c ≠ b := fun h => hb (h ▸ hc)
        rw [hps, if_neg h1, if_neg h2]
      refine ⟨?_, ?_, ?_, i.plain, ?_⟩
      · intro p c hc
        rw [hkn]
        rw [hch] at hc
        split at hc
        · simp only [List.mem_append, List.mem_cons, List.not_mem_nil, or_false] at hc
          rcases hc with (hc | rfl) | rfl
          · simp [i.known q c hc]
          · simp
          · simp
        · split at hc
          · rw [hn] at hc; cases hc
          · simp [i.known p c hc]
      · intro y hy
        rw [hkn]
        rw [hps] at hy
        split at hy
        · rename_i h; simp [h]
        · split at hy
          · rename_i h; simp [h]
          · simp [i.pseudo y hy]
      · rw [hch]
        by_cases h : e = q
        · subst h
          rw [if_pos rfl]
          exact L_support (hl rfl).2 (fresh_child i hb) (fresh_child i ha) hba
            (fun c hc => hold c (i.known e c hc)) (by rw [hps, if_neg hba, if_pos rfl]) (by rw [hps, if_pos rfl]) i.loc
        · rw [if_neg h]
          by_cases h' : e = a ∨ e = b
          · rw [if_pos h', hn, hns, i.fresh (by rcases h' with rfl | rfl <;> assumption)]
            exact ⟨List.nodup_nil, rfl, .inl ⟨by simp, rfl⟩, fun h => by cases h⟩
          · rw [if_neg h']
            exact L_congr (fun c hc => (hold c (i.known e c hc)).symm) i.loc
      · intro h
        rw [hkn] at h
        exact i.fresh fun h' => h (by simp [h'])
    · have : hook (w.set q { w.el q with support := true }) q b a = w.set q { w.el q with support := true } := by
        simp only [hook, PWorld.set, if_true]
        push Not at hk
        rw [if_neg hk.1, if_neg hk.2]
      rw [this]
      have hne : e ≠ q := fun h => hk (by subst h; exact (hl rfl).1)
      refine ⟨?_, i.pseudo, ?_, i.plain, i.fresh⟩
      · intro p c hc
        simp only [PWorld.set] at hc
        split at hc
        · exact i.known q c hc
        · exact i.known p c hc
      · simp only [PWorld.set, if_neg hne]
        exact i.loc

private theorem inv_run {e : E} : ∀ {ops : List (Op E)} {w v : PWorld E}, Inv e w v →
    Throughout (fun w o => OpPossible w o ∧ OpPolite w e o) w ops → Inv e (run w ops) (run v (withoutSupport ops))
  | [], _, _, i, _ => i
  | o :: os, w, v, i, h => by
    have := inv_run (inv_step i o h.1.1 h.1.2) h.2
    have e1 : run v (withoutSupport (o :: os)) = run (run v (withoutSupport [o])) (withoutSupport os) := by
      rw [show o :: os = [o] ++ os from rfl, withoutSupport, List.filter_append, run, List.foldl_append]
      rfl
    rw [e1]
    exact this

/-- C99 (partial: the application does not touch the pseudo elements, see `OpPolite`): after every frame, an element with
support has exactly one `::before` as first child and one `::after` as last one; between them are the children, in their
order, that the element would have without support. -/
theorem C99_one_each_partial (e : E) (ops : List (Op E))
    (h : Throughout (fun w o => OpPossible w o ∧ OpPolite w e o) PWorld.empty (ops ++ [.frame]))
    (hs : ((run PWorld.empty ops).el e).support = true) :
    Framed (run PWorld.empty (ops ++ [.frame])) e ((run PWorld.empty (withoutSupport ops)).el e).children := by
  have i0 : Inv e (PWorld.empty : PWorld E) PWorld.empty :=
    ⟨(fun _ _ h => by cases h), fun _ h => absurd rfl h,
      ⟨List.nodup_nil, rfl, .inl ⟨by simp [PWorld.empty], rfl⟩, (fun h => by cases h)⟩, rfl, fun _ => rfl⟩
  have := inv_run i0 h
  have hf : withoutSupport (ops ++ [.frame]) = withoutSupport ops ++ [.frame] := by
    rw [withoutSupport, List.filter_append]; rfl
  have hrun : ∀ l : List (Op E), run PWorld.empty (l ++ [.frame]) = step (run PWorld.empty l) .frame := fun l => by
    rw [run, List.foldl_append]; rfl
  rw [hf, hrun, hrun] at this
  have hv : ((step (run PWorld.empty (withoutSupport ops)) .frame).el e).children =
      ((run PWorld.empty (withoutSupport ops)).el e).children := by
    have hp : ((run PWorld.empty (withoutSupport ops)).el e).support = false := this.plain
    simp only [step, sorted, hp, Bool.false_and, Bool.false_eq_true, if_false]
  rw [hrun]
  have hc := this.loc.calm hs rfl
  rw [hv] at hc
  exact hc

/-- C99: the two new children are texts (without being nodes) if the element is a text, else nodes; they are not
supported themselves, and have no children. -/
theorem C99_kinds {w : PWorld E} {e b a : E} (h : OpPossible w (.support e b a))
    (hk : (w.el e).text = true ∨ (w.el e).block = true) :
    ∀ x, x = b ∨ x = a → ((step w (.support e b a)).el x).text = (w.el e).text ∧
      ((step w (.support e b a)).el x).block = !(w.el e).text ∧ ((step w (.support e b a)).el x).support = false ∧
      ((step w (.support e b a)).el x).children = [] := by
  obtain ⟨he, hb, ha, hba⟩ := h
  have e1 : b ≠ e := fun h => hb (h ▸ he)
  have e2 : a ≠ e := fun h => ha (h ▸ he)
  intro x hx
  by_cases ht : (w.el e).text = true
  · have : step w (.support e b a) = spawn (spawn (w.set e { w.el e with support := true }) b { text := true } (some .before)
        (some e)) a { text := true } (some .after) (some e) := by
      simp only [step, hook, PWorld.set, if_true, ht]
    rw [this, two_el w he hb ha hba, ht]
    rcases hx with rfl | rfl
    · simp [e1]
    · simp [e2]
  · have hk := hk.resolve_left ht
    have ht : (w.el e).text = false := by simpa using ht
    have : step w (.support e b a) = spawn (spawn (w.set e { w.el e with support := true }) b { block := true } (some .before)
        (some e)) a { block := true } (some .after) (some e) := by
      simp only [step, hook, PWorld.set, if_true, ht, hk, Bool.false_eq_true, if_false]
    rw [this, two_el w he hb ha hba, ht]
    rcases hx with rfl | rfl
    · simp [e1]
    · simp [e2]

/-- A node with support from the start; a child appended, one put at the front, one appended and taken out again. -/
private def ops : List (Op ℕ) :=
  [.spawn 0 false true none, .support 0 10 11, .spawn 1 false true (some 0), .frame, .spawn 2 false true none,
    .insertAt 0 0 2, .append 0 1, .spawn 3 true true (some 0), .frame, .remove 3]

private theorem polite_ops :
    Throughout (fun w o => OpPossible w o ∧ OpPolite w 0 o) (PWorld.empty : PWorld ℕ) (ops ++ [.frame]) := by
  simp only [ops, List.cons_append, List.nil_append, Throughout, OpPossible, OpPolite]
  and_intros
  all_goals first | trivial | decide +kernel | exact fun _ _ => trivial

example : Framed (run PWorld.empty (ops ++ [.frame])) 0 [2, 1] :=
  C99_one_each_partial 0 ops polite_ops (by decide +kernel)

example : ((step (run PWorld.empty [.spawn 0 true true none]) (.support 0 10 11)).el 10).block = false :=
  (C99_kinds (w := run (PWorld.empty : PWorld ℕ) [.spawn 0 true true none]) (e := 0) (b := 10) (a := 11)
    (by simp only [OpPossible]; decide +kernel) (by decide +kernel) 10 (.inl rfl)).2.1.trans (by decide +kernel)

/-! ### Where it goes wrong -/

private theorem sorted_two {ps : ℕ → Option Pseudo} (h1 : ps 10 = some .before) (h2 : ps 11 = some .after) :
    sortPseudo ps [10, 11] = [10, 11] := by
  simp [sortPseudo, h1, h2, Flair.Prepare.pseudoCmp, List.mergeSort, List.MergeSort.Internal.splitInTwo]

private theorem sorted_three {ps : ℕ → Option Pseudo} (h1 : ps 10 = some .before) (h2 : ps 11 = some .after) :
    sortPseudo ps [10, 11, 1] = [10, 1, 11] := by
  simp [sortPseudo, h1, h2, Flair.Prepare.pseudoCmp, List.mergeSort, List.MergeSort.Internal.splitInTwo]

private theorem sorted_four {ps : ℕ → Option Pseudo} (h1 : ps 10 = some .before) (h2 : ps 11 = some .after)
    (h3 : ps 1 = none) (h4 : ps 2 = none) : sortPseudo ps [10, 2, 1, 11] = [10, 2, 1, 11] := by
  simp [sortPseudo, h1, h2, h3, h4, Flair.Prepare.pseudoCmp, List.mergeSort, List.MergeSort.Internal.splitInTwo]

private theorem sorted_twice {ps : ℕ → Option Pseudo} (h1 : ps 10 = some .before) (h2 : ps 11 = some .after)
    (h3 : ps 12 = some .before) (h4 : ps 13 = some .after) : sortPseudo ps [10, 11, 12, 13] = [10, 12, 13, 11] := by
  simp [sortPseudo, h1, h2, h3, h4, Flair.Prepare.pseudoCmp, List.mergeSort, List.MergeSort.Internal.splitInTwo]

private theorem sorted_again {ps : ℕ → Option Pseudo} (h1 : ps 10 = some .before) (h2 : ps 11 = some .after)
    (h3 : ps 12 = some .before) (h4 : ps 13 = some .after) (h5 : ps 1 = none) :
    sortPseudo ps ([10, 12, 13, 11] ++ [1]) = [10, 12, 11, 1, 13] := by
  simp [sortPseudo, h1, h2, h3, h4, h5, Flair.Prepare.pseudoCmp, List.mergeSort, List.MergeSort.Internal.splitInTwo]

/-- C99 is false when support is inserted a second time: the element then has two `::before` and two `::after` children,
and each change of the children swaps the two last ones. -/
theorem C99_inserted_twice : ∃ (ops : List (Op ℕ)) (child : Op ℕ),
    Throughout OpPossible (PWorld.empty : PWorld ℕ) (ops ++ [.frame, child, .frame]) ∧
    ((run PWorld.empty (ops ++ [.frame])).el 0).children = [10, 12, 13, 11] ∧
    ((run PWorld.empty (ops ++ [.frame, child, .frame])).el 0).children = [10, 12, 11, 1, 13] ∧
    (run PWorld.empty ops).pseudo 10 = some .before ∧ (run PWorld.empty ops).pseudo 12 = some .before ∧
    (run PWorld.empty ops).pseudo 11 = some .after ∧ (run PWorld.empty ops).pseudo 13 = some .after := by
  refine ⟨[.spawn 0 false true none, .support 0 10 11, .support 0 12 13], .spawn 1 false true (some 0), ?_, ?_⟩
  · simp only [List.cons_append, List.nil_append, Throughout, OpPossible]
    decide +kernel
  · have e1 : ((run PWorld.empty ([.spawn 0 false true none, .support 0 10 11, .support 0 12 13] ++ [.frame])).el
        0).children = sortPseudo (run PWorld.empty ([.spawn 0 false true none, .support 0 10 11, .support 0 12 13] :
          List (Op ℕ))).pseudo [10, 11, 12, 13] := rfl
    have e2 : ((run PWorld.empty ([.spawn 0 false true none, .support 0 10 11, .support 0 12 13] ++
        [.frame, .spawn 1 false true (some 0), .frame])).el 0).children =
        sortPseudo (run PWorld.empty ([.spawn 0 false true none, .support 0 10 11, .support 0 12 13,
          .spawn 1 false true (some 0)] : List (Op ℕ))).pseudo (sortPseudo (run PWorld.empty ([.spawn 0 false true none,
          .support 0 10 11, .support 0 12 13] : List (Op ℕ))).pseudo [10, 11, 12, 13] ++ [1]) := rfl
    refine ⟨?_, ?_, by decide +kernel⟩
    · rw [e1, sorted_twice rfl rfl rfl rfl]
    · rw [e2, sorted_twice rfl rfl rfl rfl, sorted_again rfl rfl rfl rfl rfl]

/-- C99 is false when support is inserted before the component `Node` (or `Text`): the element never gets pseudo elements. -/
theorem C99_too_early : ∃ ops : List (Op ℕ), Throughout OpPossible (PWorld.empty : PWorld ℕ) (ops ++ [.frame]) ∧
    ((run PWorld.empty (ops ++ [.frame])).el 0).support = true ∧
    ((run PWorld.empty (ops ++ [.frame])).el 0).block = true ∧
    ((run PWorld.empty (ops ++ [.frame])).el 0).children = [] := by
  refine ⟨[.spawn 0 false false none, .support 0 10 11, .components 0 false true], ?_, ?_⟩
  · simp only [List.cons_append, List.nil_append, Throughout, OpPossible]
    decide +kernel
  · decide +kernel

/-- C99 is false when the application despawns the children of the element, to replace them: the pseudo elements go with
them, and do not come back. -/
theorem C99_children_replaced : ∃ ops : List (Op ℕ), Throughout OpPossible (PWorld.empty : PWorld ℕ) (ops ++ [.frame]) ∧
    ((run PWorld.empty (ops ++ [.frame])).el 0).support = true ∧
    ((run PWorld.empty (ops ++ [.frame])).el 0).children = [2] ∧
    (run PWorld.empty (ops ++ [.frame])).pseudo 2 = none := by
  refine ⟨[.spawn 0 false true none, .support 0 10 11, .spawn 1 false true (some 0), .frame, .removeAll 0,
    .spawn 2 false true (some 0)], ?_, ?_⟩
  · simp only [List.cons_append, List.nil_append, Throughout, OpPossible]
    decide +kernel
  · decide +kernel

/-- C99: places count the `::before` child: a child inserted at place 1 is the first of the children with support, and
the second without. -/
theorem C99_place_counts_before : ∃ ops : List (Op ℕ),
    Throughout OpPossible (PWorld.empty : PWorld ℕ) (ops ++ [.frame]) ∧
    ((run PWorld.empty (ops ++ [.frame])).el 0).children = [10, 2, 1, 11] ∧
    ((run PWorld.empty (withoutSupport ops)).el 0).children = [1, 2] := by
  refine ⟨[.spawn 0 false true none, .support 0 10 11, .spawn 1 false true (some 0), .spawn 2 false true none, .frame,
    .insertAt 0 1 2], ?_, ?_⟩
  · simp only [List.cons_append, List.nil_append, Throughout, OpPossible]
    decide +kernel
  · have e : ((run PWorld.empty ([.spawn 0 false true none, .support 0 10 11, .spawn 1 false true (some 0),
        .spawn 2 false true none, .frame, .insertAt 0 1 2] ++ [.frame])).el 0).children =
        sortPseudo (run PWorld.empty ([.spawn 0 false true none, .support 0 10 11, .spawn 1 false true (some 0),
        .spawn 2 false true none] : List (Op ℕ))).pseudo
        (((sortPseudo (run PWorld.empty ([.spawn 0 false true none, .support 0 10 11, .spawn 1 false true (some 0),
        .spawn 2 false true none] : List (Op ℕ))).pseudo [10, 11, 1]).filter (· ≠ 2)).insertIdx
          (min 1 ((sortPseudo (run PWorld.empty ([.spawn 0 false true none, .support 0 10 11, .spawn 1 false true (some 0),
        .spawn 2 false true none] : List (Op ℕ))).pseudo [10, 11, 1]).filter (· ≠ 2)).length) 2) := rfl
    refine ⟨?_, by decide +kernel⟩
    rw [e, sorted_three rfl rfl]
    exact sorted_four rfl rfl rfl rfl

/-- C99: taking the support away leaves the pseudo elements where they are. -/
theorem C99_removed_stays : ∃ ops : List (Op ℕ), Throughout OpPossible (PWorld.empty : PWorld ℕ) (ops ++ [.frame]) ∧
    ((run PWorld.empty (ops ++ [.frame])).el 0).support = false ∧
    ((run PWorld.empty (ops ++ [.frame])).el 0).children = [10, 11] ∧
    (run PWorld.empty ops).pseudo 10 = some .before ∧ (run PWorld.empty ops).pseudo 11 = some .after := by
  refine ⟨[.spawn 0 false true none, .support 0 10 11, .frame, .unsupport 0], ?_, ?_⟩
  · simp only [List.cons_append, List.nil_append, Throughout, OpPossible]
    decide +kernel
  · have e : ((run PWorld.empty ([.spawn 0 false true none, .support 0 10 11, .frame, .unsupport 0] ++ [.frame])).el
        0).children = sortPseudo (run PWorld.empty ([.spawn 0 false true none, .support 0 10 11] :
          List (Op ℕ))).pseudo [10, 11] := rfl
    refine ⟨by decide +kernel, ?_, by decide +kernel⟩
    rw [e, sorted_two rfl rfl]

end Flair.Props
