import Verif.Spec.VarsChange
import Verif.Proofs.Invalidation
/-!
# C80: values follow the variables
-/
namespace Flair.Props
open Flair.Tree Flair.VarsChange Flair.Spec

variable {E M N T V A K : Type} [DecidableEq E] [DecidableEq M] [DecidableEq A]

/-- What a node is when nothing is left to be done for it. -/
private def Good (m : Maps M N T A) (st : St E M N T V A K) (e : E) : Prop :=
  st.vars e = (st.rules e).own ∧ st.values e = some ((st.rules e).decl (resolver m st e))

private structure Inv (m : Maps M N T A) (st : St E M N T V A K) : Prop where
  wf : st.forest.WF
  good : ∀ e, st.styled e = true → st.marker e = false → Good m st e

private theorem resolver_congr {m : Maps M N T A} {s t : St E M N T V A K} {e : E} (hs : s.styled = t.styled)
    (ha : ancestors s.forest e = ancestors t.forest e)
    (hv : ∀ x, x = e ∨ x ∈ ancestors s.forest e → s.styled x = true → s.vars x = t.vars x) : resolver m s e = resolver m t e := by
  funext v
  unfold resolver Vars.getVarTokens
  rw [← ha, ← hs]
  have : ∀ l : List E, (∀ x ∈ l, s.styled x = true → s.vars x = t.vars x) →
      l.findSome? (fun x => (if s.styled x then some (m.get (s.vars x)) else none : Option (N → Option T)).bind fun g => g v) =
      l.findSome? (fun x => (if s.styled x then some (m.get (t.vars x)) else none : Option (N → Option T)).bind fun g => g v) := by
    intro l hl
    induction l with
    | nil => rfl
    | cons x l ih =>
      rw [List.findSome?_cons, List.findSome?_cons, ih fun y hy => hl y (List.mem_cons_of_mem _ hy)]
      by_cases hx : s.styled x = true
      · rw [hl x List.mem_cons_self hx]
      · simp [hx]
  refine this _ fun x hx => hv x ?_
  simpa using hx

private theorem inv_frame {m : Maps M N T A} {st : St E M N T V A K} (h : Inv m st) (loaded : E → Bool) :
    Inv m (frame m loaded st) ∧ ∀ e, st.styled e = true → loaded e = true → Good m (frame m loaded st) e := by
  have hres : ∀ e, resolver m (frame m loaded st) e = resolver m (calculate loaded st) e := fun e => rfl
  have hvars : ∀ e, (frame m loaded st).vars e = if replaced loaded st e then (st.rules e).own else st.vars e := fun e => rfl
  have hgood : ∀ e, st.styled e = true → (frame m loaded st).marker e = false → Good m (frame m loaded st) e := by
    intro e hs hm
    have hm' : (calculate loaded st).marker e = false ∨ loaded e = true := by
      have : ((calculate loaded st).marker e && !calculated loaded (calculate loaded st) e) = false := hm
      cases h1 : (calculate loaded st).marker e with
      | false => exact .inl rfl
      | true =>
        rw [h1] at this
        simp only [Bool.true_and, Bool.not_eq_false', calculated, Bool.and_eq_true] at this
        exact .inr this.2
    have hown : (frame m loaded st).vars e = ((frame m loaded st).rules e).own := by
      rw [hvars]
      show _ = (st.rules e).own
      by_cases h1 : st.marker e = true ∧ loaded e = true
      · split
        · rfl
        · rename_i hr
          by_contra hne
          exact hr (by simp [replaced, calculated, hs, h1, Ne.symm hne])
      · have hmk : st.marker e = false := by
          rcases hm' with hm' | hm'
          · simp only [calculate, Bool.or_eq_false_iff] at hm'; exact hm'.1
          · by_contra hne; exact h1 ⟨by simpa using hne, hm'⟩
        rw [if_neg (by simp [replaced, calculated, hmk])]
        exact (h.good e hs hmk).1
    refine ⟨hown, ?_⟩
    rw [hres]
    show (if calculated loaded (calculate loaded st) e then
      some (((calculate loaded st).rules e).decl (resolver m (calculate loaded st) e)) else st.values e) =
      some ((st.rules e).decl (resolver m (calculate loaded st) e))
    split
    · rfl
    · rename_i hc
      have hmk : (calculate loaded st).marker e = false := by
        rcases hm' with hm' | hm'
        · exact hm'
        · by_contra hne
          exact hc (by simp only [calculated, Bool.and_eq_true]; exact ⟨⟨hs, by simpa using hne⟩, hm'⟩)
      have hmk1 := hmk
      simp only [calculate, Bool.or_eq_false_iff] at hmk1
      have hg := (h.good e hs hmk1.1).2
      rw [hg]
      congr 2
      refine resolver_congr (s := st) (t := calculate loaded st) rfl rfl ?_
      intro x hx hsx
      show st.vars x = if replaced loaded st x then (st.rules x).own else st.vars x
      split
      · rename_i hr
        exfalso
        rcases hx with rfl | hx
        · simp only [replaced, calculated, hmk1.1, Bool.and_false, Bool.false_and] at hr
          cases hr
        · have hanc : st.forest.Anc x e := (mem_ancestors h.wf e x).1 hx
          have hmem : e ∈ (st.forest.nodes.filter (replaced loaded st)).flatMap (Invalidation.descendants st.forest) := by
            refine List.mem_flatMap.2 ⟨x, List.mem_filter.2 ⟨?_, hr⟩, (Invalidation.mem_descendants h.wf x e).2 hanc⟩
            clear hx hg hmk hmk1 hc hm' hown hm hs hr hsx
            induction hanc with
            | child e hp => exact (h.wf.parent_mem _ _ hp).1
            | step p e _ _ ih => exact ih
          have := hmk1.2
          rw [hs, Bool.true_and, ← Bool.not_eq_true, List.contains_iff_mem] at this
          exact this hmem
      · rfl
  refine ⟨⟨h.wf, hgood⟩, fun e hs hl => hgood e hs ?_⟩
  show ((calculate loaded st).marker e && !calculated loaded (calculate loaded st) e) = false
  cases h1 : (calculate loaded st).marker e with
  | false => rfl
  | true =>
    have : calculated loaded (calculate loaded st) e = true := by
      simp only [calculated, h1, hl, Bool.and_true]; exact hs
    rw [this]; rfl

private theorem resolver_sees {m : Maps M N T A} {st : St E M N T V A K} (wf : st.forest.WF) (e : E) :
    Sees m st e (resolver m st e) := by
  intro v
  have := C06_nearest_definition st.forest wf (fun x => if st.styled x then some (m.get (st.vars x)) else none) e v
  have he : (fun x => (if st.styled x then some (m.get (st.vars x)) else none : Option (N → Option T)).bind fun g => g v) =
      fun x => if st.styled x then m.get (st.vars x) v else none := by
    funext x
    split <;> rfl
  rw [he] at this
  exact this

private theorem nearest_congr {f f' : Forest E} {d d' : E → Option T} {e : E} {r : Option T} (h : NearestDef f d e r)
    (hp : ∀ a, a = e ∨ f.Anc a e → f'.parent a = f.parent a) (hd : ∀ a, a = e ∨ f.Anc a e → d' a = d a) : NearestDef f' d' e r := by
  induction h with
  | own e v h => exact .own e v ((hd e (.inl rfl)).trans h)
  | inherited e p r h1 h2 _ ih =>
    have up : ∀ a, a = p ∨ f.Anc a p → a = e ∨ f.Anc a e := by
      rintro a (rfl | ha)
      · exact .inr (.child _ h2)
      · exact .inr (.step _ _ ha h2)
    exact .inherited e p r ((hd e (.inl rfl)).trans h1) ((hp e (.inl rfl)).trans h2)
      (ih (fun a ha => hp a (up a ha)) fun a ha => hd a (up a ha))
  | undefined e h1 h2 => exact .undefined e ((hd e (.inl rfl)).trans h1) ((hp e (.inl rfl)).trans h2)

private theorem inv_apply {m : Maps M N T A} {st : St E M N T V A K} (h : Inv m st) {ev : Event E M N T V A K}
    {es : List (Event E M N T V A K)} (hs : Settled st.forest st.styled (ev :: es)) :
    Inv m (apply m st ev) ∧ Settled (apply m st ev).forest (apply m st ev).styled es := by
  cases ev with
  | rules e r =>
    refine ⟨⟨h.wf, ?_⟩, hs⟩
    intro x hx hm
    have hne : x ≠ e := by rintro rfl; simp [apply] at hm
    have hm' : st.marker x = false := by simpa [apply, hne] using hm
    have := h.good x hx hm'
    simpa [Good, apply, hne, resolver] using this
  | modified s r =>
    refine ⟨⟨h.wf, ?_⟩, hs.2⟩
    intro x hx hm
    have hsx : s x = false := by
      cases h1 : s x with
      | false => rfl
      | true => simp [apply, h1] at hm
    have hm' : st.marker x = false := by simpa [apply, hsx] using hm
    obtain ⟨g1, g2⟩ := h.good x hx hm'
    refine ⟨by simpa [apply, hsx] using g1, ?_⟩
    have he : resolver m (apply m st (.modified s r)) x = resolver m st x := by
      refine resolver_congr rfl rfl ?_
      intro y hy hsy
      have : s y = false := by
        rcases hy with rfl | hy
        · exact hsx
        · cases h1 : s y with
          | false => rfl
          | true => exact absurd (hs.1 y x hsy hx h1 ((mem_ancestors h.wf x y).1 hy)) (by simp [hsx])
      simp [apply, this]
    rw [he]
    simpa [apply, hsx] using g2
  | tree f moved =>
    refine ⟨⟨hs.1, ?_⟩, hs.2.2⟩
    intro x hx hm
    have hmx : moved x = false := by
      cases h1 : moved x with
      | false => rfl
      | true => simp [apply, h1] at hm
    have hm' : st.marker x = false := by simpa [apply, hmx] using hm
    obtain ⟨g1, g2⟩ := h.good x hx hm'
    refine ⟨g1, ?_⟩
    have he : resolver m (apply m st (.tree f moved)) x = resolver m st x := by
      funext v
      have h1 := resolver_sees (m := m) (st := apply m st (.tree f moved)) hs.1 x v
      have h2 := resolver_sees (m := m) h.wf x v
      exact C06_nearest_unique _ _ _ _ _ h1 (nearest_congr h2 (fun a ha => hs.2.1 x a hx hmx ha) fun a _ => rfl)
    rw [he]
    exact g2
  | frame loaded => exact ⟨(inv_frame h loaded).1, hs⟩

private theorem inv_run {m : Maps M N T A} {es : List (Event E M N T V A K)} {st : St E M N T V A K} (h : Inv m st)
    (hs : Settled st.forest st.styled es) : Inv m (run m st es) := by
  induction es generalizing st with
  | nil => exact h
  | cons ev es ih =>
    have := inv_apply h hs
    exact ih this.1 this.2

private theorem apply_styled (m : Maps M N T A) (st : St E M N T V A K) (ev : Event E M N T V A K) : (apply m st ev).styled = st.styled := by
  cases ev <;> rfl

private theorem run_styled (m : Maps M N T A) (es : List (Event E M N T V A K)) (st : St E M N T V A K) : (run m st es).styled = st.styled := by
  induction es generalizing st with
  | nil => rfl
  | cons ev es ih => exact (ih _).trans (apply_styled ..)

private theorem run_snoc (m : Maps M N T A) (es : List (Event E M N T V A K)) (ev : Event E M N T V A K) (st : St E M N T V A K) :
    run m st (es ++ [ev]) = apply m (run m st es) ev := by
  induction es generalizing st with
  | nil => rfl
  | cons ev' es ih => exact ih _

/-- C80 (partial).  In every history in which only leaves are moved or added and modified sheets are those of whole subtrees,
after every frame the values of every node with a loaded sheet are those its declarations give with the variables it sees
at that moment, at any depth.
Missing: subtrees that are moved and sheets of a part of a subtree, for which it is false. -/
theorem C80_values_follow_partial (m : Maps M N T A) (f : Forest E) (wf : f.WF) (styled : E → Bool) (rules : E → Rules M N T V A K)
    (es : List (Event E M N T V A K)) (hs : Settled f styled es) (loaded : E → Bool) (e : E) (he : styled e = true)
    (hl : loaded e = true) : Follows m (run m (start m f styled rules) (es ++ [.frame loaded])) e := by
  have h0 : Inv m (start m f styled rules) := ⟨wf, fun x _ hm => by cases hm⟩
  have h1 := inv_run h0 (es := es) hs
  rw [run_snoc]
  have h2 := inv_frame h1 loaded
  obtain ⟨g1, g2⟩ := h2.2 e (by rw [run_styled]; exact he) hl
  exact ⟨g1, _, resolver_sees h2.1.wf e, g2⟩

/-! ## Where it fails -/

/-- 0 and 1 are roots, 3 is a child of 2, which is a child of `p`. -/
private def exF (p : Nat) : Forest Nat where
  children x := if x = p then [2] else if x = 2 then [3] else []
  parent x := if x = 2 then some p else if x = 3 then some 2 else none
  nodes := [p, 2, 3]

private theorem exF_wf (p : Nat) (hp : p < 2) : (exF p).WF where
  mem_iff q c := by
    show c ∈ (if q = p then [2] else if q = 2 then [3] else []) ↔ (if c = 2 then some p else if c = 3 then some 2 else none) = some q
    by_cases h1 : q = p
    · subst h1
      by_cases h2 : c = 2
      · simp [h2]
      · by_cases h3 : c = 3
        · subst h3; simp; omega
        · simp [h2, h3]
    · by_cases h4 : q = 2
      · subst h4
        by_cases h2 : c = 2
        · simp [h1, h2, Ne.symm h1]
        · by_cases h3 : c = 3
          · simp [h1, h3]
          · simp [h1, h2, h3]
      · by_cases h2 : c = 2
        · simp [h1, h4, h2, Ne.symm h1]
        · by_cases h3 : c = 3
          · simp [h1, h4, h3, Ne.symm h4]
          · simp [h1, h4, h2, h3]
  nodup q := by simp only [exF]; split <;> (try split) <;> simp
  parent_mem q c h := by
    simp only [exF] at h ⊢
    split at h
    · cases h; simp_all
    · split at h
      · cases h; simp_all
      · cases h
  acyclic e h := by
    have key : ∀ a b, (exF p).Anc a b → a < b := by
      intro a b h
      have hpar : ∀ x y, (exF p).parent x = some y → y < x := by
        intro x y h
        simp only [exF] at h
        split at h
        · cases h; omega
        · split at h
          · cases h; omega
          · cases h
      induction h with
      | child e h => exact hpar _ _ h
      | step q e _ h ih => exact Nat.lt_trans ih (hpar _ _ h)
    exact absurd (key e e h) (Nat.lt_irrefl _)

/-- One variable; a map is its value or nothing. -/
private def exM : Maps (Option Nat) Unit Nat Nat := ⟨fun o _ => o, none, 0⟩

/-- Rules that define the variable, use it as the value, have an animation and use the variable in its keyframes. -/
private def exR (own : Option Nat) : Rules (Option Nat) Unit Nat Nat Nat Nat :=
  ⟨own, fun env => (env ()).getD 0, fun _ => 1, fun _ env => (env ()).getD 0⟩

private def exRules (x : Nat) : Rules (Option Nat) Unit Nat Nat Nat Nat :=
  exR (if x = 0 then some 10 else if x = 1 then some 11 else none)

/-- The hypotheses are met and the values are as expected: 0 defines 10, which reaches 3; then it defines 20. -/
example : (run exM (start exM (exF 0) (fun _ => true) exRules) [.frame fun _ => true]).values 3 = some 10 ∧
    Settled (exF 0) (fun _ => true) [.frame (fun _ => true), .rules 0 (exR (some 20))] ∧
    (run exM (start exM (exF 0) (fun _ => true) exRules)
      ([.frame (fun _ => true), .rules 0 (exR (some 20))] ++ [.frame fun _ => true])).values 3 = some 20 :=
  ⟨by decide +kernel, trivial, by decide +kernel⟩

private theorem idle {m : Maps M N T A} {st : St E M N T V A K} (h : ∀ e, st.marker e = false) (loaded : E → Bool) :
    frame m loaded st = st := by
  have hc : ∀ e, calculated loaded st e = false := fun e => by simp [calculated, h e]
  have hr : ∀ e, replaced loaded st e = false := fun e => by simp [replaced, hc e]
  have h1 : calculate loaded st = st := by
    have hf : st.forest.nodes.filter (replaced loaded st) = [] := List.filter_eq_nil_iff.2 fun a _ => by simp [hr a]
    simp only [calculate, hr, hf, List.flatMap_nil, List.contains_nil, Bool.and_false, Bool.or_false, Bool.false_eq_true, if_false]
  rw [frame, h1]
  simp only [setValues, hc, Bool.false_and, Bool.false_eq_true, if_false, Bool.not_false, Bool.and_true]

private theorem idle_run {m : Maps M N T A} {st : St E M N T V A K} (h : ∀ e, st.marker e = false) (loaded : E → Bool) (n : Nat) :
    run m st (List.replicate n (.frame loaded)) = st := by
  induction n with
  | zero => rfl
  | succ n ih =>
    show run m (frame m loaded st) (List.replicate n (.frame loaded)) = st
    rw [idle h loaded]; exact ih

private theorem run_append (m : Maps M N T A) (es fs : List (Event E M N T V A K)) (st : St E M N T V A K) :
    run m st (es ++ fs) = run m (run m st es) fs := by
  induction es generalizing st with
  | nil => rfl
  | cons ev es ih => exact ih _

private theorem frame_marker {m : Maps M N T A} {st : St E M N T V A K} (h : ∀ e, st.styled e = true) (e : E) :
    (frame m (fun _ => true) st).marker e = false := by
  show ((calculate (fun _ => true) st).marker e && !calculated (fun _ => true) (calculate (fun _ => true) st) e) = false
  have : calculated (fun _ => true) (calculate (fun _ => true) st) e = (calculate (fun _ => true) st).marker e := by
    have hs : (calculate (fun _ => true) st).styled e = true := h e
    simp [calculated, hs]
  rw [this]; cases (calculate (fun _ => true) st).marker e <;> rfl

/-- What a node does not follow stays so: frames without other events change nothing. -/
private theorem stays {m : Maps M N T A} {st : St E M N T V A K} (hs : ∀ e, st.styled e = true) (es : List (Event E M N T V A K)) (n : Nat) :
    run m st (es ++ List.replicate (n + 1) (.frame fun _ => true)) = run m st (es ++ [.frame fun _ => true]) := by
  rw [List.replicate_succ, run_append, run_append]
  exact idle_run (fun e => frame_marker (fun x => by rw [run_styled]; exact hs x) e) _ n

private theorem not_follows {m : Maps M N T A} {st : St E M N T V A K} (wf : st.forest.WF) {e : E} {v : V}
    (h : st.values e = some v) (hne : (st.rules e).decl (resolver m st e) ≠ v) : ¬ Follows m st e := by
  rintro ⟨_, env, hs, hv⟩
  rw [h] at hv
  have : env = resolver m st e := by
    funext w
    exact C06_nearest_unique _ _ _ _ _ (hs w) (resolver_sees wf e w)
  subst this
  exact hne (Option.some.inj hv).symm

/-- C80 is false when a subtree is moved: 2 goes, with its child 3, from 0, whose variable is 10, to 1, whose variable is 11.
The value of 2 follows; 3, whose declaration uses the variable too, keeps 10, in this frame and in all that come after it. -/
theorem C80_moved_subtree : ∃ (m : Maps (Option Nat) Unit Nat Nat) (f f' : Forest Nat) (moved : Nat → Bool)
    (rules : Nat → Rules (Option Nat) Unit Nat Nat Nat Nat), f.WF ∧ f'.WF ∧ (∀ e, moved e = true ↔ f'.parent e ≠ f.parent e) ∧
    ∀ n st, st = run m (start m f (fun _ => true) rules)
        ([.frame (fun _ => true), .tree f' moved] ++ List.replicate (n + 1) (.frame fun _ => true)) →
      st.values 2 = some 11 ∧ st.values 3 = some 10 ∧ ¬ Follows m st 3 := by
  refine ⟨exM, exF 0, exF 1, (· == 2), exRules, exF_wf 0 (by omega), exF_wf 1 (by omega), ?_, ?_⟩
  · intro e
    by_cases h2 : e = 2
    · subst h2; decide
    · by_cases h3 : e = 3
      · subst h3; decide
      · simp [exF, h2, h3]
  · rintro n st rfl
    rw [stays fun _ => rfl]
    refine ⟨by decide +kernel, by decide +kernel, not_follows (exF_wf 1 (by omega)) (v := 10) (by decide +kernel) (by decide +kernel)⟩

/-- C80 is false when a modified sheet is that of a part of a subtree: 0 has it, 2 and 3 below it have another one.  It
defined the variable; now it does not.  The node 3 keeps the value of the variable that is no more. -/
theorem C80_other_sheet : ∃ (m : Maps (Option Nat) Unit Nat Nat) (f : Forest Nat) (sheet : Nat → Bool)
    (rules new : Nat → Rules (Option Nat) Unit Nat Nat Nat Nat), f.WF ∧ (∀ e, sheet e = true ↔ e = 0) ∧ (new 0).own = m.clear ∧
    ∀ n st, st = run m (start m f (fun _ => true) rules)
        ([.frame (fun _ => true), .modified sheet new] ++ List.replicate (n + 1) (.frame fun _ => true)) →
      st.vars 0 = m.clear ∧ st.values 3 = some 10 ∧ ¬ Follows m st 3 := by
  refine ⟨exM, exF 0, (· == 0), exRules, fun _ => exR none, exF_wf 0 (by omega), by simp, rfl, ?_⟩
  rintro n st rfl
  rw [stays fun _ => rfl]
  exact ⟨by decide +kernel, by decide +kernel, not_follows (exF_wf 0 (by omega)) (v := 10) (by decide +kernel) (by decide +kernel)⟩

/-- Variables in keyframes are not followed at all: after the variable changes from 10 to 20, the values of 3 are computed
with 20, but the keyframes of its animation, which use it too, are those for 10. -/
theorem C80_keyframes : ∃ (m : Maps (Option Nat) Unit Nat Nat) (f : Forest Nat) (rules : Nat → Rules (Option Nat) Unit Nat Nat Nat Nat)
    (new : Rules (Option Nat) Unit Nat Nat Nat Nat), f.WF ∧ (∀ a env, (rules 3).keys a env = (env ()).getD 0) ∧
    (∀ a env, new.keys a env = (env ()).getD 0) ∧
    ∀ n st, st = run m (start m f (fun _ => true) rules)
        ([.frame (fun _ => true), .rules 0 new] ++ List.replicate (n + 1) (.frame fun _ => true)) →
      Follows m st 3 ∧ Sees m st 3 (fun _ => some 20) ∧ st.values 3 = some 20 ∧ st.keys 3 = some 10 := by
  refine ⟨exM, exF 0, exRules, exR (some 20), exF_wf 0 (by omega), fun _ _ => rfl, fun _ _ => rfl, ?_⟩
  rintro n st rfl
  rw [stays fun _ => rfl]
  refine ⟨C80_values_follow_partial _ _ (exF_wf 0 (by omega)) _ _ [.frame (fun _ => true), .rules 0 (exR (some 20))] trivial _ _ rfl rfl, ?_,
    by decide +kernel, by decide +kernel⟩
  have hr : resolver exM (run exM (start exM (exF 0) (fun _ => true) exRules)
      ([.frame (fun _ => true), .rules 0 (exR (some 20))] ++ [.frame fun _ => true])) 3 = fun _ => some 20 := by
    funext v
    cases v
    decide +kernel
  rw [← hr]
  exact resolver_sees (exF_wf 0 (by omega)) 3

end Flair.Props
