import Verif.Spec.Structure
import Verif.Proofs.Invalidation
import Verif.Tactics
/-! # Proofs about style invalidation when the hierarchy changes -/
namespace Flair.Proofs.Structure
set_option linter.unusedSectionVars false
open Flair.Tree Flair.Spec Flair.Structure
open Flair.Invalidation (Flags Dir FlagMap Change St descendants marksOf markChanged Comb Le Watch mem_descendants
  Le_insert)
variable {E D A : Type} [DecidableEq E]

/-! ## flags only grow -/

def CLe (a b : CssMap E) : Prop := ∀ x, ((a x).empty = true → (b x).empty = true) ∧ ((a x).below = true → (b x).below = true)

theorem CLe.refl (a : CssMap E) : CLe a a := fun _ => ⟨id, id⟩
theorem CLe.trans {a b c : CssMap E} (h : CLe a b) (h' : CLe b c) : CLe a c :=
  fun x => ⟨fun k => (h' x).1 ((h x).1 k), fun k => (h' x).2 ((h x).2 k)⟩

theorem CLe_insert (c : CssMap E) (x : E) (f : CssFlags) : CLe c (c.insert x f) := by
  intro y
  unfold CssMap.insert
  split
  · simp only [CssFlags.union, CssFlags.below, Bool.or_eq_true]; tauto
  · exact ⟨id, id⟩

theorem CLe_apply (c : CssMap E) (f : CssFlags) (o : Option E) : CLe c (applyFlags c f o) := by
  cases o with
  | none => exact CLe.refl _
  | some x => exact CLe_insert _ _ _

theorem run_mono (w : EWorld E D) (p : SProg D A) (hs : List E) (fl : FlagMap E) (c : CssMap E) :
    Le fl (run w p hs fl c).2.1 ∧ CLe c (run w p hs fl c).2.2 := by
  induction p generalizing hs fl c with
  | ret a => exact ⟨Le.refl _, CLe.refl _⟩
  | read i k ih => exact ih _ _ _ _
  | isEmpty i k ih => exact ih _ _ _ _
  | move d i k ih =>
    unfold run
    split
    · exact ih _ _ _ _
    · exact ⟨(Le_insert _ _ _).trans (ih _ _ _ _).1, (ih _ _ _ _).2⟩
  | flag i f k ih =>
    unfold run
    exact ⟨(ih _ _ _).1, (CLe_apply _ _ _).trans (ih _ _ _).2⟩

theorem run_indep (w : EWorld E D) (p : SProg D A) (hs : List E) (fl fl' : FlagMap E) (c c' : CssMap E) :
    (run w p hs fl c).1 = (run w p hs fl' c').1 := by
  induction p generalizing hs fl fl' c c' with
  | ret a => rfl
  | read i k ih => exact ih _ _ _ _ _ _
  | isEmpty i k ih => exact ih _ _ _ _ _ _
  | move d i k ih =>
    unfold run
    split
    · exact ih _ _ _ _ _ _
    · exact ih _ _ _ _ _ _
  | flag i f k ih => unfold run; exact ih _ _ _ _ _

theorem insert_le {a b : FlagMap E} (h : Le a b) (x : E) (f : Flags) : Le (a.insert x f) (b.insert x f) := by
  intro y
  have := h y
  unfold FlagMap.insert
  split
  · simp only [Flags.union, Bool.or_eq_true]; tauto
  · exact this

theorem cinsert_le {a b : CssMap E} (h : CLe a b) (x : E) (f : CssFlags) : CLe (a.insert x f) (b.insert x f) := by
  intro y
  have h1 := (h y).1
  have h2 := (h y).2
  unfold CssMap.insert
  split
  · simp only [CssFlags.union, CssFlags.below, Bool.or_eq_true] at *; tauto
  · exact ⟨h1, h2⟩

theorem apply_le {a b : CssMap E} (h : CLe a b) (f : CssFlags) (o : Option E) : CLe (applyFlags a f o) (applyFlags b f o) := by
  cases o with
  | none => exact h
  | some x => exact cinsert_le h x f

theorem run_le (w : EWorld E D) (p : SProg D A) (hs : List E) {fl fl' : FlagMap E} {c c' : CssMap E} (h : Le fl fl')
    (h' : CLe c c') : Le (run w p hs fl c).2.1 (run w p hs fl' c').2.1 ∧ CLe (run w p hs fl c).2.2 (run w p hs fl' c').2.2 := by
  induction p generalizing hs fl fl' c c' with
  | ret a => exact ⟨h, h'⟩
  | read i k ih => exact ih _ _ h h'
  | isEmpty i k ih => exact ih _ _ h h'
  | move d i k ih =>
    unfold run
    split
    · exact ih _ _ h h'
    · exact ih _ _ (insert_le h _ _) h'
  | flag i f k ih => unfold run; exact ih _ h (apply_le h' _ _)

/-- no flags -/
def noFlags : FlagMap E := fun _ => Flags.empty
def noCss : CssMap E := fun _ => {}

theorem noFlags_le (fl : FlagMap E) : Le noFlags fl := by
  intro x; simp [noFlags, Flags.empty]
theorem noCss_le (c : CssMap E) : CLe noCss c := by
  intro x; simp [noCss, CssFlags.below]

/-! ## which programs -/

/-- where a handle is, seen from the element to be matched; `dark`: a place whose changes are not noticed -/
inductive Place where
  | self | side | above | dark
deriving DecidableEq

def Place.go : Dir → Place → Option Place
  | .child, _ => none
  | _, .dark => none
  | .parent, _ => some .above
  | _, .above => some .dark
  | _, _ => some .side

/-- the programs for which invalidation works; `sib`: sibling moves are allowed -/
def Snd (sib : Bool) : List Place → List Nat → SProg D A → Prop
  | _, _, .ret _ => True
  | ks, fs, .read i k => ks[i]? ≠ some .dark ∧ ∀ d, Snd sib ks fs (k d)
  | ks, fs, .isEmpty i k => ks[i]? ≠ some .dark ∧ i ∈ fs ∧ ∀ b, Snd sib ks fs (k b)
  | ks, fs, .move d i k => Snd sib ks fs (k false) ∧ (d ≠ .parent → sib = true) ∧
      ∀ kd, ks[i]? = some kd → ∃ kd', kd.go d = some kd' ∧ Snd sib (ks ++ [kd']) fs (k true)
  | ks, fs, .flag i f k => Snd sib ks (if f.empty = true ∧ i < ks.length then i :: fs else fs) k

/-- the meaning of the places -/
def At (w : EWorld E D) (e : E) : Place → E → Prop
  | .self, x => x = e
  | .side, x => ∃ p, w.forest.parent x = some p ∧ w.forest.parent e = some p
  | .above, x => w.forest.Anc x e
  | .dark, _ => True

/-! ## an element that is not marked sees no difference -/

/-- what it means for `e` that it was not marked -/
structure Unmarked (i : SInput E D A) (fl : FlagMap E) (css : CssMap E) (e : E) : Prop where
  data : ∀ x ∈ i.world.styled, ((i.change x).data || i.moved x) = true → ¬ Watch i.world fl x e
  self : ∀ x ∈ i.world.styled, i.kids x = true → (css x).self = true → ¬ Watch i.world fl x e
  below : ∀ x ∈ i.world.styled, i.kids x = true → (css x).below = true → ¬ i.world.forest.Anc x e

/-- what is known of a handle -/
def HR (w w' : EWorld E D) (fl : FlagMap E) (e : E) (kd : Place) (x : E) : Prop :=
  kd ≠ .dark → At w e kd x ∧ At w' e kd x ∧ Watch w' fl x e ∧ x ∈ w.styled ∧ x ∈ w'.styled

theorem styled_iff {w : EWorld E D} {rules : D → Option (SProg D A)} {i : SInput E D A} (ok : FrameOk w rules i) {y : E}
    (h : ¬ Alone w.forest y) (h' : ¬ Alone i.world.forest y) : y ∈ w.styled ↔ y ∈ i.world.styled := by
  constructor
  · intro hy
    by_contra hn
    exact h' (ok.despawned y hy hn)
  · intro hy
    by_contra hn
    exact h (ok.spawned y hy hn)

theorem not_alone_of_child {f : Forest E} (wf : f.WF) {x p : E} (h : f.parent x = some p) : ¬ Alone f p := by
  intro ha
  have := (wf.mem_iff p x).mpr h
  rw [ha.2] at this
  cases this

theorem not_alone_of_parent {f : Forest E} {x p : E} (h : f.parent x = some p) : ¬ Alone f x := by
  intro ha
  rw [ha.1] at h
  cases h

theorem step_eq_some {w : EWorld E D} {d : Dir} {x y : E} : w.step d x = some y ↔ w.target d x = some y ∧ y ∈ w.styled := by
  unfold Flair.Invalidation.World.step
  rw [Option.filter_eq_some_iff, List.contains_iff_mem]

/-- a step that leads to the same entity, styled before exactly if it is now -/
theorem step_congr {w w' : EWorld E D} {d : Dir} {x : E} (h : w'.target d x = w.target d x)
    (hs : ∀ y, w.target d x = some y → (y ∈ w.styled ↔ y ∈ w'.styled)) : w'.step d x = w.step d x := by
  unfold Flair.Invalidation.World.step
  rw [h]
  cases ht : w.target d x with
  | none => rfl
  | some y =>
    have := hs y ht
    by_cases hy : y ∈ w.styled
    · have hy' := this.mp hy
      simp [Option.filter, hy, hy']
    · have hy' : y ∉ w'.styled := fun h => hy (this.mpr h)
      simp [Option.filter, hy, hy']

theorem insert_watch {w : EWorld E D} (wf : w.forest.WF) {e y : E} {d : Dir} {kd : Place} (hd : d ≠ .child)
    (hk : (d = .parent ∧ kd = .above) ∨ (d ≠ .parent ∧ kd = .side)) (hat : At w e kd y) (f : FlagMap E) :
    Watch w (f.insert y d.flag) y e := by
  rcases hk with ⟨rfl, rfl⟩ | ⟨hp, rfl⟩
  · exact .inr (.inr (.inl ⟨by simp [FlagMap.insert, Flags.union, Dir.flag], (mem_descendants wf y e).mpr hat⟩))
  · obtain ⟨p, h1, h2⟩ := hat
    refine .inr (.inl ⟨by cases d <;> simp_all [FlagMap.insert, Flags.union, Dir.flag], ?_⟩)
    unfold uiSiblings
    rw [h1]
    exact (wf.mem_iff p e).mpr h2

theorem go_above {w : EWorld E D} {e x y : E} {kd : Place} (hd : kd ≠ .dark) (hat : At w e kd x)
    (h : w.forest.parent x = some y) : w.forest.Anc y e := by
  cases kd with
  | self => cases hat; exact .child _ h
  | side =>
    obtain ⟨p, h1, h2⟩ := hat
    rw [h] at h1; cases h1
    exact .child _ h2
  | above => exact Flair.Invalidation.Anc_parent_left hat h
  | dark => exact absurd rfl hd

theorem go_side {w : EWorld E D} {e x y p : E} {kd : Place} (hk : kd = .self ∨ kd = .side) (hat : At w e kd x)
    (hx : w.forest.parent x = some p) (hy : w.forest.parent y = some p) : At w e .side y := by
  rcases hk with rfl | rfl
  · cases hat; exact ⟨p, hy, hx⟩
  · obtain ⟨q, h1, h2⟩ := hat
    rw [hx] at h1; cases h1
    exact ⟨p, hy, h2⟩

/-- the sibling a move leads to: given by the children of the parent -/
theorem target_sibling {w w' : EWorld E D} (hw : SoundWorld w) (hw' : SoundWorld w') {x : E} {d : Dir} (hd : d = .prev ∨ d = .next)
    (hp : w'.forest.parent x = w.forest.parent x)
    (hc : ∀ p, w.forest.parent x = some p → w'.forest.children p = w.forest.children p) :
    w'.target d x = w.target d x ∧ ∀ y, w.target d x = some y → ∃ p, w.forest.parent x = some p ∧ w.forest.parent y = some p ∧
      w'.forest.parent y = some p := by
  have n := hw.neighbours x
  have n' := hw'.neighbours x
  cases h : w.forest.parent x with
  | none =>
    have h1 := n.1 h
    have h2 := n'.1 (hp.trans h)
    rcases hd with rfl | rfl
    · simp only [Flair.Invalidation.World.target]
      simp only at h1 h2
      rw [h1.1, h2.1]; simp
    · simp only [Flair.Invalidation.World.target]
      simp only at h1 h2
      rw [h1.2, h2.2]; simp
  | some p =>
    have hm := (hw.wf.mem_iff p x).mpr h
    obtain ⟨l1, l2, hl⟩ := List.append_of_mem hm
    have h1 := n.2 p l1 l2 h hl
    have h2 := n'.2 p l1 l2 (hp.trans h) ((hc p h).trans hl)
    have hsib : ∀ y, y ∈ l1 ∨ y ∈ l2 → w.forest.parent y = some p ∧ w'.forest.parent y = some p := by
      intro y hy
      have hm : y ∈ w.forest.children p := by rw [hl]; simp; tauto
      refine ⟨(hw.wf.mem_iff p y).mp hm, (hw'.wf.mem_iff p y).mp ?_⟩
      rw [hc p h]; exact hm
    rcases hd with rfl | rfl
    · simp only [Flair.Invalidation.World.target]
      simp only at h1 h2
      refine ⟨by rw [h1.1, h2.1], ?_⟩
      intro y hy
      rw [h1.1] at hy
      exact ⟨p, rfl, hsib y (.inl (List.mem_of_mem_getLast? hy))⟩
    · simp only [Flair.Invalidation.World.target]
      simp only at h1 h2
      refine ⟨by rw [h1.2, h2.2], ?_⟩
      intro y hy
      rw [h1.2] at hy
      exact ⟨p, rfl, hsib y (.inr (List.mem_of_mem_head? hy))⟩

theorem forall₂_get {α β : Type} {R : α → β → Prop} {l : List α} {m : List β} (h : List.Forall₂ R l m) (i : Nat) :
    (l[i]? = none ∧ m[i]? = none) ∨ ∃ a b, l[i]? = some a ∧ m[i]? = some b ∧ R a b := by
  induction h generalizing i with
  | nil => exact .inl ⟨rfl, rfl⟩
  | cons h _ ih =>
    cases i with
    | zero => exact .inr ⟨_, _, rfl, rfl, h⟩
    | succ i => simpa using ih i

theorem watch_eq {w : EWorld E D} {fl fl0 : FlagMap E} {x e : E} (h : fl x = fl0 x) (hw : Watch w fl0 x e) : Watch w fl x e := by
  unfold Watch at *
  rw [h]; exact hw

theorem sync {w : EWorld E D} {rules : D → Option (SProg D A)} {i : SInput E D A} (hw : SoundWorld w) (ok : FrameOk w rules i)
    {fl : FlagMap E} {css : CssMap E} {e : E} (u : Unmarked i fl css e) (sib : Bool)
    {fl0 : FlagMap E} {css0 : CssMap E}
    (h0 : ∀ kd x, kd ≠ Place.dark → At i.world e kd x → x ∈ w.styled → fl x = fl0 x ∧ css x = css0 x)
    (hk : sib = true → ∀ x p, w.forest.parent x = some p → i.world.forest.parent x = some p → i.world.forest.Anc p e →
      p ∈ i.world.styled ∧ (css p).below = true)
    (p : SProg D A) : ∀ (ks : List Place) (fs : List Nat) (hs : List E) (f : FlagMap E) (c : CssMap E), Snd sib ks fs p →
      List.Forall₂ (HR w i.world fl e) ks hs → (∀ j ∈ fs, ∀ x, hs[j]? = some x → (css0 x).empty = true) →
      (∀ j ∈ fs, j < ks.length) →
      Le (run w p hs f c).2.1 fl0 → CLe (run w p hs f c).2.2 css0 → run i.world p hs f c = run w p hs f c := by
  -- a handle has the same data, the same parent
  have same : ∀ kd x, kd ≠ Place.dark → HR w i.world fl e kd x →
      i.world.data x = w.data x ∧ i.world.forest.parent x = w.forest.parent x := by
    intro kd x hd h
    obtain ⟨_, _, h3, h4, h5⟩ := h hd
    constructor
    · by_contra hne
      exact u.data x h5 (by simp [ok.detected x h4 h5 hne]) h3
    · by_contra hne
      exact u.data x h5 (by simp [ok.moved x hne]) h3
  induction p with
  | ret a => intros; rfl
  | read j k ih =>
    intro ks fs hs f c hn hr hf hj hl hc
    have e1 : hs[j]?.map i.world.data = hs[j]?.map w.data := by
      rcases forall₂_get hr j with ⟨_, h2⟩ | ⟨kd, x, h1, h2, h3⟩
      · rw [h2]; rfl
      · rw [h2]
        simp only [Option.map_some]
        rw [(same kd x (fun h => hn.1 (by rw [h1, h])) h3).1]
    unfold run at hl hc ⊢
    rw [e1]
    exact ih _ ks fs hs f c (hn.2 _) hr hf hj hl hc
  | isEmpty j k ih =>
    intro ks fs hs f c hn hr hf hj hl hc
    have e1 : hs[j]?.map (fun x => (i.world.forest.children x).isEmpty) = hs[j]?.map fun x => (w.forest.children x).isEmpty := by
      rcases forall₂_get hr j with ⟨_, h2⟩ | ⟨kd, x, h1, h2, h3⟩
      · rw [h2]; rfl
      · rw [h2]
        simp only [Option.map_some]
        have hd : kd ≠ .dark := fun h => hn.1 (by rw [h1, h])
        obtain ⟨_, h7, h4, h5, h6⟩ := h3 hd
        have : i.world.forest.children x = w.forest.children x := by
          by_contra hne
          exact u.self x h6 (ok.kids x hne) (by rw [(h0 kd x hd h7 h5).2]; simp [CssFlags.self, hf j hn.2.1 x h2]) h4
        rw [this]
    unfold run at hl hc ⊢
    rw [e1]
    exact ih _ ks fs hs f c (hn.2.2 _) hr hf hj hl hc
  | flag j g k ih =>
    intro ks fs hs f c hn hr hf hj hl hc
    unfold run at hl hc ⊢
    refine ih ks _ hs f _ hn hr ?_ ?_ hl hc
    · intro j' hj' x hx
      split at hj'
      · rename_i hg
        rcases List.mem_cons.mp hj' with rfl | h
        · refine (hc x).1 ((run_mono w k hs f _).2 x |>.1 ?_)
          rw [hx]
          simp [applyFlags, CssMap.insert, CssFlags.union, hg.1]
        · exact hf j' h x hx
      · exact hf j' hj' x hx
    · intro j' hj'
      split at hj'
      · rename_i hg
        rcases List.mem_cons.mp hj' with rfl | h
        · exact hg.2
        · exact hj j' h
      · exact hj j' hj'
  | move d j k ih =>
    intro ks fs hs f c hn hr hf hj hl hc
    obtain ⟨hn1, hn2, hn3⟩ := hn
    rcases forall₂_get hr j with ⟨_, h2⟩ | ⟨kd, x, h1, h2, h3⟩
    · unfold run at hl hc ⊢
      rw [h2] at hl hc ⊢
      exact ih _ ks fs hs f c hn1 hr hf hj hl hc
    · obtain ⟨kd', hg, hn4⟩ := hn3 kd h1
      have hd : kd ≠ .dark := by rintro rfl; cases d <;> cases hg
      obtain ⟨hat, hat', hwt, hst, hst'⟩ := h3 hd
      have hpar := (same kd x hd h3).2
      have hchild : d ≠ .child := by rintro rfl; cases kd <;> cases hg
      -- children of the parent
      have hkids : d ≠ .parent → ∀ q, w.forest.parent x = some q → i.world.forest.children q = w.forest.children q := by
        intro hdp q hq
        by_contra hne
        have hanc := go_above hd hat' (hpar.trans hq)
        obtain ⟨s1, s2⟩ := hk (hn2 hdp) x q hq (hpar.trans hq) hanc
        exact u.below q s1 (ok.kids q hne) s2 hanc
      have hstep : i.world.step d x = w.step d x ∧ ∀ y, w.step d x = some y → HR w i.world (f.insert y d.flag) e kd' y := by
        cases d with
        | child => exact absurd rfl hchild
        | parent =>
          have hiff : ∀ y, w.forest.parent x = some y → (y ∈ w.styled ↔ y ∈ i.world.styled) := fun y hy =>
            styled_iff ok (not_alone_of_child hw.wf hy) (not_alone_of_child ok.world.wf (hpar.trans hy))
          refine ⟨step_congr hpar hiff, ?_⟩
          intro y hy
          obtain ⟨hy1, hy2⟩ := step_eq_some.mp hy
          change w.forest.parent x = some y at hy1
          have hkd : kd' = .above := by cases kd <;> simp_all [Place.go]
          subst hkd
          intro _
          exact ⟨go_above hd hat hy1, go_above hd hat' (hpar.trans hy1),
            insert_watch ok.world.wf (by simp) (.inl ⟨rfl, rfl⟩) (go_above hd hat' (hpar.trans hy1)) f, hy2, (hiff y hy1).mp hy2⟩
        | prev =>
          obtain ⟨t1, t2⟩ := target_sibling hw ok.world (x := x) (d := .prev) (.inl rfl) hpar (hkids (by simp))
          have hiff : ∀ y, w.target .prev x = some y → (y ∈ w.styled ↔ y ∈ i.world.styled) := fun y hy => by
            obtain ⟨q, _, q2, q3⟩ := t2 y hy
            exact styled_iff ok (not_alone_of_parent q2) (not_alone_of_parent q3)
          refine ⟨step_congr t1 hiff, ?_⟩
          intro y hy hdk
          obtain ⟨hy1, hy2⟩ := step_eq_some.mp hy
          obtain ⟨q, q1, q2, q3⟩ := t2 y hy1
          have hkk : kd' = .side ∧ (kd = .self ∨ kd = .side) := by cases kd <;> simp_all [Place.go]
          obtain ⟨rfl, hkk⟩ := hkk
          have h' := go_side hkk hat' (hpar.trans q1) q3
          exact ⟨go_side hkk hat q1 q2, h', insert_watch ok.world.wf (by simp) (.inr ⟨by simp, rfl⟩) h' f, hy2, (hiff y hy1).mp hy2⟩
        | next =>
          obtain ⟨t1, t2⟩ := target_sibling hw ok.world (x := x) (d := .next) (.inr rfl) hpar (hkids (by simp))
          have hiff : ∀ y, w.target .next x = some y → (y ∈ w.styled ↔ y ∈ i.world.styled) := fun y hy => by
            obtain ⟨q, _, q2, q3⟩ := t2 y hy
            exact styled_iff ok (not_alone_of_parent q2) (not_alone_of_parent q3)
          refine ⟨step_congr t1 hiff, ?_⟩
          intro y hy hdk
          obtain ⟨hy1, hy2⟩ := step_eq_some.mp hy
          obtain ⟨q, q1, q2, q3⟩ := t2 y hy1
          have hkk : kd' = .side ∧ (kd = .self ∨ kd = .side) := by cases kd <;> simp_all [Place.go]
          obtain ⟨rfl, hkk⟩ := hkk
          have h' := go_side hkk hat' (hpar.trans q1) q3
          exact ⟨go_side hkk hat q1 q2, h', insert_watch ok.world.wf (by simp) (.inr ⟨by simp, rfl⟩) h' f, hy2, (hiff y hy1).mp hy2⟩
      obtain ⟨hs1, hs2⟩ := hstep
      unfold run at hl hc ⊢
      rw [h2] at hl hc ⊢
      simp only [Option.bind_some] at hl hc ⊢
      rw [hs1]
      cases hb : w.step d x with
      | none =>
        rw [hb] at hl hc
        exact ih _ ks fs hs f c hn1 hr hf hj hl hc
      | some y =>
        rw [hb] at hl hc
        dsimp only at hl hc ⊢
        have hle : Le (f.insert y d.flag) fl0 := (run_mono w _ _ _ _).1.trans hl
        refine ih _ (ks ++ [kd']) fs (hs ++ [y]) _ c hn4 ?_ ?_ ?_ hl hc
        · refine List.rel_append hr (.cons ?_ .nil)
          intro hdk
          obtain ⟨a1, a2, a3, a4, a5⟩ := hs2 y hb hdk
          exact ⟨a1, a2, watch_eq (h0 kd' y hdk a2 a4).1 (a3.mono hle), a4, a5⟩
        · intro j' hj' z hz
          have hlt := hj j' hj'
          rw [hr.length_eq] at hlt
          rw [List.getElem?_append_left hlt] at hz
          exact hf j' hj' z hz
        · intro j' hj'
          have := hj j' hj'
          simp; omega

/-! ## what it means not to be marked -/

theorem unmarked_of {w : EWorld E D} {i : SInput E D A} (wf : i.world.forest.WF) {st : SSt E A} {e : E}
    (he : e ∈ i.world.styled)     (hm : (marking w i st).base.marker e = false) :
    (prepare w i st).base.marker e = false ∧ Unmarked i (prepare w i st).base.flags (prepare w i st).css e := by
  unfold marking setRelated markChanged at hm
  simp only [Bool.or_eq_false_iff] at hm
  obtain ⟨⟨h1, h2⟩, h3⟩ := hm
  have hcont : i.world.styled.contains e = true := List.contains_iff_mem.mpr he
  rw [hcont, Bool.true_and, ← Bool.not_eq_true, List.contains_iff_mem] at h2 h3
  refine ⟨h1, ?_, ?_, ?_⟩
  · intro x hx hc hwx
    apply h3
    rw [List.mem_flatMap]
    refine ⟨x, List.mem_filter.mpr ⟨hx, ?_⟩, ?_⟩
    · simp only [changes, hc, Bool.true_or]
    · unfold marksOf
      simp only [changes, hc, Bool.not_true, Bool.false_and, Bool.true_or, if_true, Bool.false_eq_true, if_false,
          List.mem_append, List.mem_singleton]
      rcases hwx with h | ⟨h, h'⟩ | ⟨h, h'⟩ | ⟨h, h'⟩
      · exact .inl (.inl (.inl h.symm))
      · exact .inl (.inl (.inr (by rw [if_pos h]; exact h')))
      · exact .inl (.inr (by rw [if_pos h]; exact h'))
      · exact .inr (by rw [if_pos h]; exact h')
  · intro x hx hk hs hwx
    have hrel : x ∈ related i.world i.kids (prepare w i st).css := by
      unfold related
      rw [List.mem_flatMap]
      exact ⟨x, List.mem_filter.mpr ⟨hx, hk⟩, by simp [relatedOf, hs]⟩
    have hc : (changes i (prepare w i st).css x).marker = true := by
      simp [changes, hrel]
    have hcx : i.world.styled.contains x = true := List.contains_iff_mem.mpr hx
    by_cases hxe : x = e
    · exact h2 (hxe ▸ hrel)
    · apply h3
      rw [List.mem_flatMap]
      refine ⟨x, List.mem_filter.mpr ⟨hx, by simp [hc]⟩, ?_⟩
      unfold marksOf
      rw [if_neg (by simp [hx, hrel])]
      simp only [List.mem_append]
      rcases hwx with h | ⟨h, h'⟩ | ⟨h, h'⟩ | ⟨h, h'⟩
      · exact absurd h hxe
      · exact .inl (.inl (.inr (by rw [if_pos h]; exact h')))
      · exact .inl (.inr (by rw [if_pos h]; exact h'))
      · exact .inr (by rw [if_pos h]; exact h')
  · intro x hx hk hb ha
    apply h2
    unfold related
    rw [List.mem_flatMap]
    refine ⟨x, List.mem_filter.mpr ⟨hx, hk⟩, ?_⟩
    simp only [relatedOf, hb, if_true, List.mem_append]
    exact .inr ((mem_descendants wf x e).mpr ha)

/-! ## the loop -/

theorem calcOne_marker (w : EWorld E D) (rules : D → Option (SProg D A)) (st : SSt E A) (e : E) :
    (calcOne w rules st e).base.marker = st.base.marker := by
  unfold calcOne
  split
  · split <;> rfl
  · rfl

theorem calcOne_mono (w : EWorld E D) (rules : D → Option (SProg D A)) (st : SSt E A) (e : E) :
    Le st.base.flags (calcOne w rules st e).base.flags ∧ CLe st.css (calcOne w rules st e).css := by
  unfold calcOne
  split
  · split
    · exact ⟨Le.refl _, CLe.refl _⟩
    · exact run_mono _ _ _ _ _
  · exact ⟨Le.refl _, CLe.refl _⟩

theorem calc_marker (w : EWorld E D) (rules : D → Option (SProg D A)) (order : List E) (st : SSt E A) :
    (order.foldl (calcOne w rules) st).base.marker = st.base.marker := by
  induction order generalizing st with
  | nil => rfl
  | cons e es ih => rw [List.foldl_cons, ih, calcOne_marker]

theorem calc_mono (w : EWorld E D) (rules : D → Option (SProg D A)) (order : List E) (st : SSt E A) :
    Le st.base.flags (order.foldl (calcOne w rules) st).base.flags ∧ CLe st.css (order.foldl (calcOne w rules) st).css := by
  induction order generalizing st with
  | nil => exact ⟨Le.refl _, CLe.refl _⟩
  | cons e es ih =>
    have := calcOne_mono w rules st e
    exact ⟨this.1.trans (ih _).1, this.2.trans (ih _).2⟩

/-- the run of the element leaves its flags -/
def Left (w : EWorld E D) (p : SProg D A) (e : E) (st : SSt E A) : Prop :=
  Le (run w p [e] noFlags noCss).2.1 st.base.flags ∧ CLe (run w p [e] noFlags noCss).2.2 st.css

theorem Left.mono {w : EWorld E D} {p : SProg D A} {e : E} {st st' : SSt E A} (h : Left w p e st)
    (h' : Le st.base.flags st'.base.flags ∧ CLe st.css st'.css) : Left w p e st' :=
  ⟨h.1.trans h'.1, h.2.trans h'.2⟩

/-- what the loop leaves for an entity `e` -/
theorem calc_active (w : EWorld E D) (rules : D → Option (SProg D A))
    (order : List E) (st : SSt E A) (e : E) :
    (st.base.marker e = false → (order.foldl (calcOne w rules) st).base.active e = st.base.active e) ∧
    (∀ p, rules (w.data e) = some p → st.base.marker e = true → e ∈ order →
      (order.foldl (calcOne w rules) st).base.active e = some (run w p [e] noFlags noCss).1 ∧
      Left w p e (order.foldl (calcOne w rules) st)) ∧
    (∀ p, rules (w.data e) = some p → st.base.active e = some (run w p [e] noFlags noCss).1 →
      (order.foldl (calcOne w rules) st).base.active e = some (run w p [e] noFlags noCss).1) := by
  induction order generalizing st with
  | nil => exact ⟨fun _ => rfl, fun p _ _ h => (by cases h), fun p _ h => h⟩
  | cons a as ih =>
    rw [List.foldl_cons]
    obtain ⟨i1, i2, i3⟩ := ih (calcOne w rules st a)
    rw [calcOne_marker] at i1 i2
    have hkeep : a ≠ e → (calcOne w rules st a).base.active e = st.base.active e := by
      intro h
      unfold calcOne
      split
      · split
        · rfl
        · simp only; rw [if_neg (fun h' => h h'.symm)]
      · rfl
    have hset : ∀ p, rules (w.data e) = some p → st.base.marker e = true →
        (calcOne w rules st e).base.active e = some (run w p [e] noFlags noCss).1 ∧ Left w p e (calcOne w rules st e) := by
      intro p hp hm
      unfold calcOne
      rw [if_pos hm, hp]
      dsimp only
      rw [if_pos rfl]
      exact ⟨by rw [run_indep], run_le w p [e] (noFlags_le _) (noCss_le _)⟩
    refine ⟨?_, ?_, ?_⟩
    · intro hm
      rw [i1 hm]
      by_cases h : a = e
      · subst h
        unfold calcOne
        rw [if_neg (by simp [hm])]
      · exact hkeep h
    · intro p hp hm ho
      by_cases h : a = e
      · subst h
        obtain ⟨h1, h2⟩ := hset p hp hm
        exact ⟨i3 p hp h1, h2.mono (calc_mono _ _ _ _)⟩
      · have ho' : e ∈ as := by
          rcases List.mem_cons.mp ho with h' | h'
          · exact absurd h'.symm h
          · exact h'
        exact i2 p hp hm ho'
    · intro p hp ha
      have : (calcOne w rules st a).base.active e = some (run w p [e] noFlags noCss).1 := by
        by_cases h : a = e
        · subst h
          by_cases hm : st.base.marker a = true
          · exact (hset p hp hm).1
          · unfold calcOne
            rw [if_neg hm]; exact ha
        · rw [hkeep h]; exact ha
      exact i3 p hp this

/-! ## the invariant -/

/-- the program first leaves a flag that makes the descendants depend on the children -/
def FlagsFirst : SProg D A → Prop
  | .flag 0 f _ => f.below = true
  | _ => False

theorem flagsFirst_below {w : EWorld E D} {p : SProg D A} (h : FlagsFirst p) (e : E) :
    ((run w p [e] noFlags noCss).2.2 e).below = true := by
  cases p with
  | flag j f k =>
    cases j with
    | zero =>
      unfold run
      refine (run_mono w k [e] _ _).2 e |>.2 ?_
      simp only [FlagsFirst, CssFlags.below, Bool.or_eq_true] at h
      simp [applyFlags, CssMap.insert, CssFlags.union, CssFlags.below, noCss]
      tauto
    | succ j => cases h
  | _ => cases h

/-- the sheets for which invalidation works -/
def SheetsOk (sib : Bool) (rules : D → Option (SProg D A)) : Prop :=
  ∀ d p, rules d = some p → Snd sib [.self] [] p ∧ (sib = true → FlagsFirst p)

/-- what holds between frames -/
structure SInv (sib : Bool) (w : EWorld E D) (rules : D → Option (SProg D A)) (st : SSt E A) : Prop where
  unloaded : ∀ e ∈ w.styled, rules (w.data e) = none → st.base.marker e = true
  loaded : ∀ e ∈ w.styled, ∀ p, rules (w.data e) = some p → st.base.marker e = false →
    st.base.active e = some (run w p [e] noFlags noCss).1 ∧ Left w p e st
  below : sib = true → ∀ e ∈ w.styled, st.base.marker e = false → ∀ q ∈ w.styled, rules (w.data q) ≠ none →
    (st.css q).below = true

theorem at_reset {w : EWorld E D} {reset : E → Bool} (ht : ∀ x p, w.forest.parent x = some p → reset x = reset p)
    {e x : E} {kd : Place} (hd : kd ≠ .dark) (h : At w e kd x) : reset x = reset e := by
  have hanc : ∀ {a b : E}, w.forest.Anc a b → reset a = reset b := by
    intro a b h
    induction h with
    | child b hb => exact (ht b a hb).symm
    | step p b _ hb ih => rw [ih]; exact (ht b p hb).symm
  cases kd with
  | self => cases h; rfl
  | side =>
    obtain ⟨p, h1, h2⟩ := h
    rw [ht x p h1, ht e p h2]
  | above => exact hanc h
  | dark => exact absurd rfl hd

/-- a run only leaves flags on what it can reach -/
theorem run_only (w : EWorld E D) (P : E → Prop) (hP : ∀ d x y, P x → w.step d x = some y → P y) (p : SProg D A)
    (hs : List E) (fl : FlagMap E) (c : CssMap E) (h : ∀ x ∈ hs, P x) :
    ∀ x, ¬ P x → (run w p hs fl c).2.1 x = fl x ∧ (run w p hs fl c).2.2 x = c x := by
  induction p generalizing hs fl c with
  | ret a => intro x _; exact ⟨rfl, rfl⟩
  | read i k ih => exact ih _ _ _ _ h
  | isEmpty i k ih => exact ih _ _ _ _ h
  | move d i k ih =>
    unfold run
    split
    · exact ih _ _ _ _ h
    · rename_i y hy
      rw [Option.bind_eq_some_iff] at hy
      obtain ⟨z, hz, hzy⟩ := hy
      have hy : P y := hP d z y (h z (List.mem_of_getElem? hz)) hzy
      intro x hx
      have := ih true (hs ++ [y]) (fl.insert y d.flag) c (by
        intro a ha
        rcases List.mem_append.mp ha with ha | ha
        · exact h a ha
        · rw [List.mem_singleton.mp ha]; exact hy) x hx
      rw [this.1, this.2]
      refine ⟨?_, rfl⟩
      unfold FlagMap.insert
      rw [if_neg (fun hxy => hx (by rw [hxy]; exact hy))]
  | flag i f k ih =>
    unfold run
    intro x hx
    have := ih hs fl (applyFlags c f hs[i]?) h x hx
    rw [this.1, this.2]
    refine ⟨rfl, ?_⟩
    cases hi : hs[i]? with
    | none => rfl
    | some z =>
      simp only [applyFlags, CssMap.insert]
      rw [if_neg]
      rintro rfl
      exact hx (h _ (List.mem_of_getElem? hi))

theorem neighbour_parent {w : EWorld E D} (hw : SoundWorld w) {x y : E} (h : w.prev x = some y ∨ w.next x = some y) :
    ∃ p, w.forest.parent x = some p ∧ w.forest.parent y = some p := by
  have n := hw.neighbours x
  cases hp : w.forest.parent x with
  | none =>
    have := n.1 hp
    rcases h with h | h
    · exact absurd (this.1.symm.trans h) (by simp)
    · exact absurd (this.2.symm.trans h) (by simp)
  | some p =>
    obtain ⟨l1, l2, hl⟩ := List.append_of_mem ((hw.wf.mem_iff p x).mpr hp)
    have := n.2 p l1 l2 hp hl
    refine ⟨p, rfl, (hw.wf.mem_iff p y).mp ?_⟩
    rw [hl]
    rcases h with h | h
    · have h' := this.1.symm.trans h
      simp [List.mem_of_mem_getLast? h']
    · have h' := this.2.symm.trans h
      simp [List.mem_of_mem_head? h']

theorem step_reset {w : EWorld E D} (hw : SoundWorld w) {reset : E → Bool}
    (ht : ∀ x p, w.forest.parent x = some p → reset x = reset p) {d : Dir} {x y : E} (h : w.step d x = some y) :
    reset y = reset x := by
  obtain ⟨h, _⟩ := step_eq_some.mp h
  cases d with
  | parent => exact (ht x y h).symm
  | prev =>
    obtain ⟨p, h1, h2⟩ := neighbour_parent hw (.inl h)
    rw [ht x p h1, ht y p h2]
  | next =>
    obtain ⟨p, h1, h2⟩ := neighbour_parent hw (.inr h)
    rw [ht x p h1, ht y p h2]
  | child => exact ht y x ((hw.wf.mem_iff x y).mp (List.mem_of_mem_head? h))

theorem inv_frame {sib : Bool} {w : EWorld E D} (hw : SoundWorld w) {rules : D → Option (SProg D A)} {st : SSt E A}
    (inv : SInv sib w rules st) (i : SInput E D A) (ok : FrameOk w rules i)
    (hr0 : (∃ e ∈ w.styled, st.base.marker e = false) → SheetsOk sib rules ∧ (sib = true → ParentsLoaded w rules))
    (hr : SheetsOk sib i.rules) :
    SInv sib i.world i.rules (frame w st i).2 ∧
    ∀ e ∈ i.world.styled, ∀ p, i.rules (i.world.data e) = some p →
      (frame w st i).2.base.active e = some (run i.world p [e] noFlags noCss).1 := by
  have main : ∀ e ∈ i.world.styled, ∀ p, i.rules (i.world.data e) = some p →
      ((frame w st i).2.base.active e = some (run i.world p [e] noFlags noCss).1 ∧ Left i.world p e (frame w st i).2) := by
    intro e he p hp
    obtain ⟨c1, c2, _⟩ := calc_active i.world i.rules i.order (marking w i st) e
    unfold frame
    simp only [clearMarkers]
    by_cases hm : (marking w i st).base.marker e = true
    · exact c2 p hp hm (ok.visited e he)
    · rw [Bool.not_eq_true] at hm
      obtain ⟨hpm, hu⟩ := unmarked_of ok.world.wf he hm
      have hact : (marking w i st).base.active e = (prepare w i st).base.active e := rfl
      have hpm' := hpm
      simp only [prepare, Bool.or_eq_false_iff] at hpm'
      obtain ⟨⟨⟨hfr, hmk⟩, hrs⟩, _⟩ := hpm'
      have hew : e ∈ w.styled := by
        by_contra hn
        simp [fresh, he, hn] at hfr
      obtain ⟨hr0, hl⟩ := hr0 ⟨e, hew, hmk⟩
      have hdata : i.world.data e = w.data e := by
        by_contra hne
        exact hu.data e he (by simp [ok.detected e hew he hne]) (.inl rfl)
      have hold : rules (w.data e) = some p := by
        cases h : rules (w.data e) with
        | none => exact absurd (inv.unloaded e hew h) (by simp [hmk])
        | some p' =>
          by_cases hpp : i.rules (w.data e) = some p'
          · rw [hdata] at hp; rw [← hpp, hp]
          · exact absurd (ok.sheets e hew p' h hpp) (by simp [hrs])
      obtain ⟨ha, hleft⟩ := inv.loaded e hew p hold hmk
      have h0 : ∀ kd x, kd ≠ Place.dark → At i.world e kd x → x ∈ w.styled →
          (prepare w i st).base.flags x = st.base.flags x ∧ (prepare w i st).css x = st.css x := by
        intro kd x hd hat hx
        have h1 : i.reset x = false := by rw [at_reset ok.tree hd hat]; exact hrs
        have h2 : fresh w i.world x = false := by simp [fresh, hx]
        simp [prepare, h1, h2]
      have hsync : run i.world p [e] noFlags noCss = run w p [e] noFlags noCss := by
        refine sync hw ok hu sib h0 ?_ p [.self] [] [e] noFlags noCss (hr0 _ _ hold).1 ?_ (by simp) (by simp) hleft.1 hleft.2
        · intro hs x q hq hq' hanc
          obtain ⟨q1, q2⟩ := hl hs x q hq
          have hb := inv.below hs e hew hmk q q1 q2
          have hq3 : q ∈ i.world.styled :=
            (styled_iff ok (not_alone_of_child hw.wf hq) (not_alone_of_child ok.world.wf hq')).mp q1
          refine ⟨hq3, ?_⟩
          rw [(h0 .above q (by simp) hanc q1).2]
          exact hb
        · refine .cons ?_ .nil
          intro _
          exact ⟨rfl, rfl, .inl rfl, hew, he⟩
      rw [c1 hm, hact, hsync]
      refine ⟨?_, ?_⟩
      · simp only [prepare, hfr, Bool.false_eq_true, if_false]; exact ha
      · -- the flags of the run are still there
        have hold' := hleft
        unfold Left at hleft ⊢
        rw [hsync]
        have key : ∀ x, (i.reset x = true ∨ x ∉ w.styled) → (run w p [e] noFlags noCss).2.1 x = Flags.empty ∧
            (run w p [e] noFlags noCss).2.2 x = {} := by
          intro x hx
          rcases hx with hx | hx
          · rw [← hsync]
            exact run_only i.world (fun x => i.reset x = false)
              (fun d x y h1 h2 => by rw [step_reset ok.world ok.tree h2]; exact h1) p [e] noFlags noCss
              (by simpa using hrs) x (by simp [hx])
          · exact run_only w (fun x => x ∈ w.styled) (fun d x y _ h2 => (step_eq_some.mp h2).2) p [e] noFlags noCss
              (by simpa using hew) x hx
        have hmono := calc_mono i.world i.rules i.order (marking w i st)
        constructor
        · refine Le.trans ?_ hmono.1
          intro x
          by_cases hx : i.reset x = true ∨ x ∉ w.styled
          · rw [(key x hx).1]; simp [Flags.empty]
          · push Not at hx
            have : (marking w i st).base.flags x = st.base.flags x := by
              simp [marking, setRelated, markChanged, prepare, fresh, hx.1, hx.2]
            rw [this]
            exact hleft.1 x
        · refine CLe.trans ?_ hmono.2
          intro x
          by_cases hx : i.reset x = true ∨ x ∉ w.styled
          · rw [(key x hx).2]; simp [CssFlags.below]
          · push Not at hx
            have : (marking w i st).css x = st.css x := by
              simp [marking, setRelated, markChanged, prepare, fresh, hx.1, hx.2]
            rw [this]
            exact hleft.2 x
  refine ⟨⟨?_, ?_, ?_⟩, fun e he p hp => (main e he p hp).1⟩
  · intro e he hn
    simp only [frame, clearMarkers, hn, Option.isNone_none, Bool.and_true, Bool.or_eq_true]
    left
    rw [calc_marker]
    by_contra hm
    rw [Bool.not_eq_true] at hm
    obtain ⟨hpm, hu⟩ := unmarked_of ok.world.wf he hm
    simp only [prepare, Bool.or_eq_false_iff] at hpm
    obtain ⟨⟨⟨hfr, hmk⟩, hrs⟩, _⟩ := hpm
    have hew : e ∈ w.styled := by
      by_contra hn
      simp [fresh, he, hn] at hfr
    have hdata : i.world.data e = w.data e := by
      by_contra hne
      exact hu.data e he (by simp [ok.detected e hew he hne]) (.inl rfl)
    rw [hdata] at hn
    cases h : rules (w.data e) with
    | none => exact absurd (inv.unloaded e hew h) (by simp [hmk])
    | some p' => exact absurd (ok.sheets e hew p' h (by rw [hn]; simp)) (by simp [hrs])
  · intro e he p hp _
    exact main e he p hp
  · intro hs _ _ _ q hq hn
    obtain ⟨p, hp⟩ := Option.ne_none_iff_exists'.mp hn
    exact ((main q hq p hp).2.2 q).2 (flagsFirst_below ((hr _ p hp).2 hs) q)

/-- histories in which every frame is allowed and every sheet is one for which invalidation works -/
def SheetsOkAll (sib : Bool) : List (SInput E D A) → Prop
  | [] => True
  | i :: is => SheetsOk sib i.rules ∧ (sib = true → ParentsLoaded i.world i.rules) ∧ SheetsOkAll sib is

theorem inv_frames {sib : Bool} (is : List (SInput E D A)) : ∀ {w : EWorld E D}, SoundWorld w → ∀ {rules : D → Option (SProg D A)}
    {st : SSt E A}, SInv sib w rules st → FramesOk w rules is →
    ((∃ e ∈ w.styled, st.base.marker e = false) → SheetsOk sib rules ∧ (sib = true → ParentsLoaded w rules)) →
    SheetsOkAll sib is → ∀ i : SInput E D A, is.getLast? = some i →
    ∀ e ∈ i.world.styled, ∀ p, i.rules (i.world.data e) = some p →
      (frames (w, st) is).2.base.active e = some (run i.world p [e] noFlags noCss).1 := by
  induction is with
  | nil => intro w _ rules st _ _ _ _ i hi; cases hi
  | cons j js ih =>
    intro w hw rules st inv ok hr0 hr i hi
    have := inv_frame hw inv j ok.1 hr0 hr.1
    cases js with
    | nil =>
      simp only [List.getLast?_singleton, Option.some.injEq] at hi
      subst hi
      exact this.2
    | cons k ks =>
      exact ih ok.1.world this.1 ok.2 (fun _ => ⟨hr.1, hr.2.1⟩) hr.2.2 i (by simpa using hi)

theorem sheetsOkAll_of {sib : Bool} (is : List (SInput E D A)) (h : ∀ i ∈ is, SheetsOk sib i.rules ∧ (sib = true → ParentsLoaded i.world i.rules)) :
    SheetsOkAll sib is := by
  induction is with
  | nil => trivial
  | cons i is ih => exact ⟨(h i (by simp)).1, (h i (by simp)).2, ih fun j hj => h j (by simp [hj])⟩

theorem frames_world (is : List (SInput E D A)) (last : SInput E D A) : ∀ s : EWorld E D × SSt E A,
    (frames s (is ++ [last])).1 = last.world := by
  induction is with
  | nil => intro s; rfl
  | cons i is ih => intro s; exact ih _

end Flair.Proofs.Structure
