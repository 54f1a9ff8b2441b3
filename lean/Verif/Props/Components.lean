import Verif.Spec.Components
import Verif.Tactics
import Mathlib.Data.List.Range
/-!
# C41, C42: applying values to components, automatic insertion and removal
-/
namespace Flair.Components
open Flair.Spec
variable {T V : Type} [DecidableEq T]
set_option linter.unusedSectionVars false

theorem mem_ids (r : Registration T V) (i : Nat) : i ∈ r.ids ↔ Has r i := by
  unfold Registration.ids Has
  rw [List.mem_range'_1]
  omega

theorem loop_fold (ok : Nat → V → Bool) (is : List Nat) (l : Loop V) (hf : l.failed = false)
    (hok : ∀ i ∈ is, ∀ v, l.values i = some v → ok i v) :
    is.foldl (Loop.step ok) l =
      ⟨fun j => if j ∈ is then (l.values j).getD (l.comp j) else l.comp j,
       fun j => if j ∈ is then none else l.values j,
       l.any || is.any (fun i => (l.values i).isSome), false⟩ := by
  induction is generalizing l with
  | nil =>
    obtain ⟨c, vs, a, f⟩ := l
    simp only at hf
    subst hf
    simp
  | cons i is ih =>
    rw [List.foldl_cons]
    rcases hv : l.values i with _ | v
    · have hs : Loop.step ok l i = { l with values := fun j => if j = i then none else l.values j } := by
        simp [Loop.step, hf, hv]
      rw [hs, ih _ (by exact hf)]
      · simp only [Loop.mk.injEq, and_true]
        refine ⟨?_, ?_, ?_⟩
        · funext j
          by_cases hj : j = i
          · subst hj; simp [hv]
          · simp [hj]
        · funext j
          by_cases hj : j = i
          · subst hj; simp
          · simp [hj]
        · rw [List.any_cons, hv]
          congr 1
          rw [Option.isSome_none, Bool.false_or, Bool.eq_iff_iff, List.any_eq_true, List.any_eq_true]
          refine exists_congr fun j => and_congr_right fun _ => ?_
          by_cases hj : j = i
          · subst hj; simp [hv]
          · simp [hj]
      · intro j hj w hw
        by_cases hji : j = i
        · subst hji; simp at hw
        · simp only [hji, ↓reduceIte] at hw
          exact hok j (by simp [hj]) w hw
    · have ho : ok i v = true := hok i (by simp) v hv
      have hs : Loop.step ok l i = { l with
          comp := fun j => if j = i then v else l.comp j
          values := fun j => if j = i then none else l.values j
          any := true } := by
        simp [Loop.step, hf, hv, ho]
      rw [hs, ih _ (by exact hf)]
      · simp only [Loop.mk.injEq, and_true]
        refine ⟨?_, ?_, ?_⟩
        · funext j
          by_cases hj : j = i
          · subst hj; simp [hv]
          · simp [hj]
        · funext j
          by_cases hj : j = i
          · subst hj; simp
          · simp [hj]
        · rw [List.any_cons, hv]
          simp
      · intro j hj w hw
        by_cases hji : j = i
        · subst hji; simp at hw
        · simp only [hji, ↓reduceIte] at hw
          exact hok j (by simp [hj]) w hw

/-- Some value is given for the component. -/
def anyGiven (r : Registration T V) (vs : Values V) : Bool := r.ids.any fun i => (vs i).isSome

theorem anyGiven_iff (r : Registration T V) (vs : Values V) :
    anyGiven r vs = true ↔ ∃ i, Has r i ∧ (vs i).isSome := by
  simp [anyGiven, mem_ids]

theorem internalApply_eq (ok : Nat → V → Bool) (r : Registration T V) (c : Comp V) (vs : Values V)
    (hok : ∀ i, Has r i → ∀ v, vs i = some v → ok i v) :
    internalApply ok r c vs = ⟨written r vs c, fun j => if r.start ≤ j ∧ j < r.stop then none else vs j, anyGiven r vs,
      false⟩ := by
  unfold internalApply
  rw [loop_fold ok r.ids _ rfl (fun i hi v hv => hok i ((mem_ids r i).1 hi) v hv)]
  simp only [mem_ids, Has, Bool.false_or, anyGiven]
  rfl

theorem written_none (r : Registration T V) (vs : Values V) (c : Comp V) (h : anyGiven r vs = false) :
    written r vs c = c := by
  funext i
  unfold written
  split
  · rename_i hi
    have : vs i = none := by
      rw [← Option.not_isSome_iff_eq_none]
      intro hs
      have := (anyGiven_iff r vs).2 ⟨i, hi, hs⟩
      rw [h] at this
      cases this
    simp [this]
  · rfl

/-- What a list of commands does to the component `t` and its flag. -/
def view (t : T) : List (Cmd T V) → Option (Comp V) × Bool → Option (Comp V) × Bool
  | [], x => x
  | .insert u c :: q, x => view t q (if u = t then (some c, x.2) else x)
  | .autoInserted u :: q, x => view t q (if u = t then (x.1, true) else x)
  | .remove u :: q, x => view t q (if u = t then (none, x.2) else x)

theorem view_run (t : T) (q : List (Cmd T V)) (e : Entity T V) :
    ((q.foldl Cmd.run e).world t, (q.foldl Cmd.run e).auto t) = view t q (e.world t, e.auto t) := by
  induction q generalizing e with
  | nil => rfl
  | cons c q ih =>
    rw [List.foldl_cons, ih]
    rcases c with ⟨u, c⟩ | u | u
    · by_cases h : t = u
      · subst h; simp [view, Cmd.run, World.put]
      · have : u ≠ t := fun h' => h h'.symm
        simp [view, Cmd.run, World.put, h, this]
    · by_cases h : t = u
      · subst h; simp [view, Cmd.run]
      · have : u ≠ t := fun h' => h h'.symm
        simp [view, Cmd.run, h, this]
    · by_cases h : t = u
      · subst h; simp [view, Cmd.run, World.put]
      · have : u ≠ t := fun h' => h h'.symm
        simp [view, Cmd.run, World.put, h, this]

theorem view_append (t : T) (q q' : List (Cmd T V)) (x) : view t (q ++ q') x = view t q' (view t q x) := by
  induction q generalizing x with
  | nil => rfl
  | cons c q ih => rcases c with ⟨u, c⟩ | u | u <;> simp [view, ih]

/-- The type a command is about. -/
def Cmd.type : Cmd T V → T
  | .insert t _ => t
  | .autoInserted t => t
  | .remove t => t

theorem view_other (t : T) (q : List (Cmd T V)) (h : ∀ c ∈ q, c.type ≠ t) (x) : view t q x = x := by
  induction q generalizing x with
  | nil => rfl
  | cons c q ih =>
    have hc := h c (by simp)
    have := ih (fun c' hc' => h c' (by simp [hc']))
    rcases c with ⟨u, c⟩ | u | u <;> simp only [Cmd.type] at hc <;> simp [view, this, hc]

/-- What the application should do to one component and its flag. -/
def target (r : Registration T V) (vs : Values V) (x : Option (Comp V) × Bool) : Option (Comp V) × Bool :=
  match x.1 with
  | some c => (some (written r vs c), x.2)
  | none => if r.autoInsertRemove && anyGiven r vs then (some (written r vs r.default), true) else x

/-- One registration: the commands it adds, its effect on its own component, and that it leaves the rest. -/
theorem applyMut_spec (ok : Nat → V → Bool) (s : St T V) (r : Registration T V)
    (hok : ∀ i, Has r i → ∀ v, s.values i = some v → ok i v) :
    ∃ q, (applyMut ok s r).queue = s.queue ++ q ∧ (∀ c ∈ q, c.type = r.type) ∧
      (∀ t, t ≠ r.type → (applyMut ok s r).world t = s.world t) ∧
      (∀ i, ¬ Has r i → (applyMut ok s r).values i = s.values i) ∧
      ∀ a, view r.type q ((applyMut ok s r).world r.type, a) = target r s.values (s.world r.type, a) := by
  have hvals : ∀ i, ¬ Has r i → (if r.start ≤ i ∧ i < r.stop then none else s.values i) = s.values i := by
    intro i hi
    exact if_neg (by unfold Has at hi; exact hi)
  rcases hm : r.isMutable with _ | _
  · rcases hw : s.world r.type with _ | c
    · rcases ha : r.autoInsertRemove with _ | _
      · refine ⟨[], ?_, by simp, ?_, ?_, ?_⟩ <;> simp [applyMut, applyRef, hm, hw, ha, view, target]
      · rcases hg : anyGiven r s.values with _ | _
        · refine ⟨[], ?_, by simp, ?_, ?_, ?_⟩ <;>
            simp [applyMut, applyRef, hm, hw, ha, view, target, internalApply_eq ok r _ _ hok, hg]
          exact fun i hi h1 h2 => absurd ⟨h1, h2⟩ hi
        · refine ⟨[.insert r.type (written r s.values r.default), .autoInserted r.type], ?_, by simp [Cmd.type], ?_,
            ?_, ?_⟩ <;>
            simp [applyMut, applyRef, hm, hw, ha, view, target, internalApply_eq ok r _ _ hok, hg]
          exact fun i hi h1 h2 => absurd ⟨h1, h2⟩ hi
    · rcases hg : anyGiven r s.values with _ | _
      · refine ⟨[], ?_, by simp, ?_, ?_, ?_⟩ <;>
          simp [applyMut, applyRef, hm, hw, view, target, internalApply_eq ok r _ _ hok, hg, written_none]
        exact fun i hi h1 h2 => absurd ⟨h1, h2⟩ hi
      · refine ⟨[.insert r.type (written r s.values c)], ?_, by simp [Cmd.type], ?_, ?_, ?_⟩ <;>
          simp [applyMut, applyRef, hm, hw, view, target, internalApply_eq ok r _ _ hok, hg]
        exact fun i hi h1 h2 => absurd ⟨h1, h2⟩ hi
  · rcases hw : s.world r.type with _ | c
    · rcases ha : r.autoInsertRemove with _ | _
      · refine ⟨[], ?_, by simp, ?_, ?_, ?_⟩ <;> simp [applyMut, hm, hw, ha, view, target]
      · rcases hg : anyGiven r s.values with _ | _
        · refine ⟨[], ?_, by simp, ?_, ?_, ?_⟩ <;>
            simp [applyMut, hm, hw, ha, view, target, internalApply_eq ok r _ _ hok, hg]
          exact fun i hi h1 h2 => absurd ⟨h1, h2⟩ hi
        · refine ⟨[.insert r.type (written r s.values r.default), .autoInserted r.type], ?_, by simp [Cmd.type], ?_,
            ?_, ?_⟩ <;>
            simp [applyMut, hm, hw, ha, view, target, internalApply_eq ok r _ _ hok, hg]
          exact fun i hi h1 h2 => absurd ⟨h1, h2⟩ hi
    · refine ⟨[], ?_, by simp, ?_, ?_, ?_⟩
      · simp [applyMut, hm, hw]
      · intro t ht; simp [applyMut, hm, hw, World.put, ht]
      · intro i hi
        simp only [applyMut, hm, hw, internalApply_eq ok r _ _ hok]
        exact hvals i hi
      · simp [applyMut, hm, hw, World.put, view, target, internalApply_eq ok r _ _ hok]

theorem applyMut_values (ok : Nat → V → Bool) (s : St T V) (r : Registration T V)
    (hok : ∀ i v, s.values i = some v → ok i v) (i : Nat) :
    (applyMut ok s r).values i = none ∨ (applyMut ok s r).values i = s.values i := by
  by_cases hi : Has r i
  · unfold applyMut applyRef
    split
    · split
      · exact .inr rfl
      · simp only [internalApply_eq ok r _ _ (fun i _ v hv => hok i v hv)]
        split <;> exact .inl (if_pos hi)
    · split
      · simp only [internalApply_eq ok r _ _ (fun i _ v hv => hok i v hv)]
        exact .inl (if_pos hi)
      · split
        · simp only [internalApply_eq ok r _ _ (fun i _ v hv => hok i v hv)]
          split <;> exact .inl (if_pos hi)
        · exact .inr rfl
  · obtain ⟨q, -, -, -, h4, -⟩ := applyMut_spec ok s r (fun i _ v hv => hok i v hv)
    exact .inr (h4 i hi)

theorem fold_other (ok : Nat → V → Bool) (regs : List (Registration T V)) (s : St T V) (t : T)
    (hok : ∀ i v, s.values i = some v → ok i v) (ht : ∀ r ∈ regs, r.type ≠ t) :
    ∃ q, (regs.foldl (applyMut ok) s).queue = s.queue ++ q ∧ (∀ c ∈ q, c.type ≠ t) ∧
      (regs.foldl (applyMut ok) s).world t = s.world t ∧
      (∀ i, (∀ r ∈ regs, ¬ Has r i) → (regs.foldl (applyMut ok) s).values i = s.values i) ∧
      (∀ i v, (regs.foldl (applyMut ok) s).values i = some v → ok i v) := by
  induction regs generalizing s with
  | nil => exact ⟨[], by simp, by simp, rfl, by simp, hok⟩
  | cons r regs ih =>
    obtain ⟨q, h1, h2, h3, h4, -⟩ := applyMut_spec ok s r (fun i _ v hv => hok i v hv)
    have hok' : ∀ i v, (applyMut ok s r).values i = some v → ok i v := by
      intro i v hv
      rcases applyMut_values ok s r hok i with hn | hn
      · rw [hn] at hv; cases hv
      · rw [hn] at hv; exact hok i v hv
    obtain ⟨q', g1, g2, g3, g4, g5⟩ := ih (applyMut ok s r) hok' (fun r' hr' => ht r' (by simp [hr']))
    refine ⟨q ++ q', by rw [List.foldl_cons, g1, h1]; simp, ?_, ?_, ?_, g5⟩
    · intro c hc
      rcases List.mem_append.1 hc with hc | hc
      · rw [h2 c hc]; exact ht r (by simp)
      · exact g2 c hc
    · rw [List.foldl_cons, g3, h3 t (fun h => ht r (by simp) h.symm)]
    · intro i hi
      rw [List.foldl_cons, g4 i (fun r' hr' => hi r' (by simp [hr'])), h4 i (hi r (by simp))]

/-- The application as seen at the component of one registration. -/
theorem applyAll_registered (ok : Nat → V → Bool) (regs : List (Registration T V)) (hg : GoodRegs regs)
    (e : Entity T V) (ch : Values V) (hok : Typed ok ch) (r : Registration T V) (hr : r ∈ regs) :
    ((applyAll ok regs e ch).world r.type, (applyAll ok regs e ch).auto r.type) =
      target r ch (e.world r.type, e.auto r.type) := by
  obtain ⟨as, bs, rfl⟩ := List.append_of_mem hr
  unfold GoodRegs at hg
  rw [List.pairwise_append, List.pairwise_cons] at hg
  obtain ⟨-, ⟨hb, -⟩, hab⟩ := hg
  obtain ⟨q1, a1, a2, a3, a4, a5⟩ := fold_other ok as ⟨e.world, ch, []⟩ r.type hok
    (fun x hx => (hab x hx r (by simp)).1)
  generalize hs1 : as.foldl (applyMut ok) ⟨e.world, ch, []⟩ = s1 at a1 a2 a3 a4 a5
  obtain ⟨q2, b1, b2, b3, b4, b5⟩ := applyMut_spec ok s1 r (fun i _ v hv => a5 i v hv)
  have hok2 : ∀ i v, (applyMut ok s1 r).values i = some v → ok i v := by
    intro i v hv
    rcases applyMut_values ok s1 r a5 i with hn | hn
    · rw [hn] at hv; cases hv
    · rw [hn] at hv; exact a5 i v hv
  obtain ⟨q3, c1, c2, c3, c4, c5⟩ := fold_other ok bs (applyMut ok s1 r) r.type hok2
    (fun x hx => (hb x hx).1.symm)
  unfold applyAll
  rw [List.foldl_append, List.foldl_cons, hs1]
  simp only
  rw [view_run, c1, b1, a1]
  simp only [List.nil_append, view_append, c3]
  rw [view_other r.type q1 a2, b5, view_other r.type q3 c2, a3]
  have hw : ∀ c, written r s1.values c = written r ch c := by
    intro c
    funext i
    unfold written
    split
    · rename_i hi
      rw [a4 i (fun x hx hxi => (hab x hx r (by simp)).2 i ⟨hxi.1, hxi.2, hi.1, hi.2⟩)]
    · rfl
  have hany : anyGiven r s1.values = anyGiven r ch := by
    rw [Bool.eq_iff_iff, anyGiven_iff, anyGiven_iff]
    refine exists_congr fun i => and_congr_right fun hi => ?_
    rw [a4 i (fun x hx hxi => (hab x hx r (by simp)).2 i ⟨hxi.1, hxi.2, hi.1, hi.2⟩)]
  unfold target
  simp only [hw, hany]

theorem applyAll_unregistered (ok : Nat → V → Bool) (regs : List (Registration T V))
    (e : Entity T V) (ch : Values V) (hok : Typed ok ch) (t : T) (ht : ∀ r ∈ regs, r.type ≠ t) :
    ((applyAll ok regs e ch).world t, (applyAll ok regs e ch).auto t) = (e.world t, e.auto t) := by
  obtain ⟨q, a1, a2, a3, -, -⟩ := fold_other ok regs ⟨e.world, ch, []⟩ t hok ht
  unfold applyAll
  simp only
  rw [view_run, a1]
  simp only [List.nil_append]
  rw [view_other t q a2, a3]

/-! ### Removal -/

theorem remove_fold_other (regs : List (Registration T V)) (w : World T V) (computed : Values V)
    (s : (T → Bool) × List (Cmd T V)) (t : T) (ht : ∀ r ∈ regs, r.type ≠ t) :
    ∃ q, (regs.foldl (removeStep w computed) s).2 = s.2 ++ q ∧ (∀ c ∈ q, c.type ≠ t) ∧
      (regs.foldl (removeStep w computed) s).1 t = s.1 t := by
  induction regs generalizing s with
  | nil => exact ⟨[], by simp, by simp, rfl⟩
  | cons r regs ih =>
    obtain ⟨q, h1, h2, h3⟩ := ih (removeStep w computed s r) (fun r' hr' => ht r' (by simp [hr']))
    have hrt := ht r (by simp)
    rw [List.foldl_cons, h1, h3]
    unfold removeStep
    split
    · split
      · refine ⟨.remove r.type :: q, by simp, ?_, by simp [Ne.symm hrt]⟩
        intro c hc
        rcases List.mem_cons.1 hc with rfl | hc
        · exact hrt
        · exact h2 c hc
      · exact ⟨q, rfl, h2, rfl⟩
    · exact ⟨q, rfl, h2, rfl⟩

theorem autoRemove_registered (regs : List (Registration T V)) (hg : GoodRegs regs) (e : Entity T V)
    (computed : Values V) (r : Registration T V) (hr : r ∈ regs) :
    ((autoRemove regs e computed).world r.type, (autoRemove regs e computed).auto r.type) =
      if e.auto r.type = true ∧ removes r e.world computed = true then (none, false)
      else (e.world r.type, e.auto r.type) := by
  obtain ⟨as, bs, rfl⟩ := List.append_of_mem hr
  unfold GoodRegs at hg
  rw [List.pairwise_append, List.pairwise_cons] at hg
  obtain ⟨-, ⟨hb, -⟩, hab⟩ := hg
  obtain ⟨q1, a1, a2, a3⟩ := remove_fold_other as e.world computed (e.auto, []) r.type
    (fun x hx => (hab x hx r (by simp)).1)
  generalize hs1 : as.foldl (removeStep e.world computed) (e.auto, []) = s1 at a1 a2 a3
  obtain ⟨q3, c1, c2, c3⟩ := remove_fold_other bs e.world computed (removeStep e.world computed s1 r) r.type
    (fun x hx => (hb x hx).1.symm)
  unfold autoRemove
  rw [List.foldl_append, List.foldl_cons, hs1]
  simp only
  rw [view_run, c1, view_append]
  simp only
  rw [c3, view_other r.type q3 c2]
  unfold removeStep
  rw [a3]
  by_cases h1 : e.auto r.type = true
  · by_cases h2 : removes r e.world computed = true
    · simp only [h1, h2, ↓reduceIte, and_self, a1, List.nil_append, view_append]
      rw [view_other r.type q1 a2]
      simp [view]
    · simp only [h1, h2, ↓reduceIte, a1, List.nil_append, a3, Bool.false_eq_true, and_false]
      rw [view_other r.type q1 a2]
  · simp only [h1, ↓reduceIte, a1, List.nil_append, a3, Bool.false_eq_true, false_and]
    rw [view_other r.type q1 a2]

theorem autoRemove_unregistered (regs : List (Registration T V)) (e : Entity T V)
    (computed : Values V) (t : T) (ht : ∀ r ∈ regs, r.type ≠ t) :
    ((autoRemove regs e computed).world t, (autoRemove regs e computed).auto t) = (e.world t, e.auto t) := by
  obtain ⟨q1, a1, a2, a3⟩ := remove_fold_other regs e.world computed (e.auto, []) t ht
  unfold autoRemove
  simp only
  rw [view_run, a1]
  simp only [List.nil_append]
  rw [a3]
  rw [view_other t q1 a2]

end Flair.Components

namespace Flair.Props
open Flair.Components Flair.Spec
variable {T V : Type} [DecidableEq T]

/-! ## C41 -/

/-- **C41** (present components): each given property of a present component is written, its other properties
keep their values. -/
theorem C41_present (ok : Nat → V → Bool) (regs : List (Registration T V)) (hg : GoodRegs regs)
    (e : Entity T V) (ch : Values V) (hok : Typed ok ch) (r : Registration T V) (hr : r ∈ regs) (c : Comp V)
    (hc : e.world r.type = some c) :
    ∃ c', (applyAll ok regs e ch).world r.type = some c' ∧
      (∀ i v, Has r i → ch i = some v → c' i = v) ∧
      (∀ i, ¬ Has r i ∨ ch i = none → c' i = c i) := by
  have := applyAll_registered ok regs hg e ch hok r hr
  rw [hc] at this
  simp only [target, Prod.mk.injEq] at this
  refine ⟨_, this.1, ?_, ?_⟩
  · intro i v hi hv
    simp only [written]
    rw [if_pos (by exact hi), hv]
    rfl
  · intro i hi
    simp only [written]
    split
    · rename_i h
      rcases hi with hi | hi
      · exact absurd h hi
      · rw [hi]; rfl
    · rfl

/-- **C41** (absent components): a component that is not there is inserted exactly when it is auto-insertable
and a value is given for one of its properties; it then has the given values and the defaults. -/
theorem C41_absent (ok : Nat → V → Bool) (regs : List (Registration T V)) (hg : GoodRegs regs)
    (e : Entity T V) (ch : Values V) (hok : Typed ok ch) (r : Registration T V) (hr : r ∈ regs)
    (hc : e.world r.type = none) :
    (((applyAll ok regs e ch).world r.type).isSome ↔ r.autoInsertRemove ∧ ∃ i, Has r i ∧ (ch i).isSome) ∧
    ∀ c', (applyAll ok regs e ch).world r.type = some c' →
      ∀ i, Has r i → c' i = (ch i).getD (r.default i) := by
  have := applyAll_registered ok regs hg e ch hok r hr
  rw [hc] at this
  simp only [target] at this
  rw [← anyGiven_iff]
  by_cases h : (r.autoInsertRemove && anyGiven r ch) = true
  · rw [if_pos h] at this
    simp only [Prod.mk.injEq] at this
    rw [Bool.and_eq_true] at h
    refine ⟨by simp [this.1, h], ?_⟩
    intro c' hc' i hi
    rw [this.1] at hc'
    cases hc'
    simp only [written]
    rw [if_pos (by exact hi)]
  · rw [if_neg h] at this
    simp only [Prod.mk.injEq] at this
    rw [Bool.and_eq_true] at h
    refine ⟨by simp [this.1, h], ?_⟩
    intro c' hc'
    rw [this.1] at hc'
    cases hc'

/-- **C41** (everything else): components that are not registered are left alone. -/
theorem C41_others (ok : Nat → V → Bool) (regs : List (Registration T V)) (e : Entity T V) (ch : Values V)
    (hok : Typed ok ch) (t : T) (ht : ∀ r ∈ regs, r.type ≠ t) :
    (applyAll ok regs e ch).world t = e.world t :=
  congrArg Prod.fst (applyAll_unregistered ok regs e ch hok t ht)

private def exRegs : List (Registration Char Nat) :=
  [⟨'n', 0, 2, false, true, fun _ => 0⟩, ⟨'o', 2, 4, true, true, fun _ => 7⟩, ⟨'i', 4, 5, true, false, fun _ => 8⟩]

private def exChanges : Values Nat := fun i => if i = 1 then some 11 else if i = 3 then some 13 else none

/-- Three components; the first one is present, the second one is inserted, the third one is not. -/
example : GoodRegs exRegs := by
  simp only [GoodRegs, exRegs, List.pairwise_cons, List.mem_cons, List.not_mem_nil, or_false]
  refine ⟨?_, ?_, ?_, ?_⟩
  · rintro b (rfl | rfl) <;> exact ⟨by decide, fun i => by simp; omega⟩
  · rintro b rfl; exact ⟨by decide, fun i => by simp; omega⟩
  · simp
  · simp

example :
    let e := applyAll (fun _ _ => true) exRegs ⟨fun t => if t = 'n' then some fun _ => 1 else none, fun _ => false⟩
      exChanges
    (e.world 'n').map (fun c => (c 0, c 1)) = some (1, 11) ∧
    (e.world 'o').map (fun c => (c 2, c 3)) = some (7, 13) ∧ (e.world 'i').isNone ∧
    e.auto 'o' = true ∧ e.auto 'n' = false := by decide

/-! ## C42 -/

/-- The invariant of respectful histories. -/
theorem lived_auto (ok : Nat → V → Bool) (regs : List (Registration T V)) (hg : GoodRegs regs) (o : Owned T V)
    (h : Lived ok regs (fun o x => Respectful o x ∧ ∀ ch, x = .apply ch → Typed ok ch) o) :
    ∀ t, (o.entity.auto t = true ↔ o.owner t = some .style) ∧ (o.owner t = none ↔ o.entity.world t = none) := by
  induction h with
  | bare => intro t; simp [bare]
  | @op o h x hx ih =>
    intro t
    obtain ⟨i1, i2⟩ := ih t
    rcases x with ⟨u, c⟩ | u | ch | v
    · simp only [Respectful] at hx
      simp only [opRun, opEntity, opOwner, World.put]
      by_cases htu : t = u
      · subst htu
        simp [i1, hx.1]
      · simp [htu, i1, i2]
    · simp only [Respectful] at hx
      simp only [opRun, opEntity, opOwner, World.put]
      by_cases htu : t = u
      · subst htu
        simp [i1, hx.1]
      · simp [htu, i1, i2]
    · have hok := hx.2 ch rfl
      simp only [opRun, opEntity, opOwner]
      by_cases ht : ∃ r ∈ regs, r.type = t
      · obtain ⟨r, hr, rfl⟩ := ht
        have := applyAll_registered ok regs hg o.entity ch hok r hr
        rcases hw : o.entity.world r.type with _ | c
        · simp only [target, hw] at this
          have ho := i2.2 hw
          have ha : o.entity.auto r.type = false := by
            rw [← Bool.not_eq_true, i1, ho]; simp
          split at this
          · simp only [Prod.mk.injEq] at this
            simp [this.1, this.2]
          · simp only [Prod.mk.injEq] at this
            simp [this.1, this.2, ha]
        · simp only [target, hw, Prod.mk.injEq] at this
          have ho : o.owner r.type ≠ none := fun hn => by rw [i2.1 hn] at hw; cases hw
          simp [this.1, this.2, i1, ho]
      · push Not at ht
        have := applyAll_unregistered ok regs o.entity ch hok t ht
        simp only [Prod.mk.injEq] at this
        rw [this.1, this.2]
        rcases hw : o.entity.world t with _ | c
        · have ho := i2.2 hw
          simp [i1, ho]
        · have ho : o.owner t ≠ none := fun hn => by rw [i2.1 hn] at hw; cases hw
          simp [i1, ho]
    · simp only [opRun, opEntity, opOwner]
      by_cases ht : ∃ r ∈ regs, r.type = t
      · obtain ⟨r, hr, rfl⟩ := ht
        have := autoRemove_registered regs hg o.entity v r hr
        split at this
        · simp only [Prod.mk.injEq] at this
          simp [this.1, this.2]
        · simp only [Prod.mk.injEq] at this
          rw [this.1, this.2]
          rcases hw : o.entity.world r.type with _ | c
          · have ho := i2.2 hw
            simp [i1, ho]
          · have ho : o.owner r.type ≠ none := fun hn => by rw [i2.1 hn] at hw; cases hw
            simp [i1, ho]
      · push Not at ht
        have := autoRemove_unregistered regs o.entity v t ht
        simp only [Prod.mk.injEq] at this
        rw [this.1, this.2]
        rcases hw : o.entity.world t with _ | c
        · have ho := i2.2 hw
          simp [i1, ho]
        · have ho : o.owner t ≠ none := fun hn => by rw [i2.1 hn] at hw; cases hw
          simp [i1, ho]

/-- **C42**, as far as it holds: in histories in which the user leaves the components of the style alone, the
automatic removal removes a component exactly when the style inserted it, it is auto-removable, and none of
its properties has a value; all the other components stay as they are.  Missing: histories in which the user
replaces or removes a component of the style, see `C42_user_component_removed`. -/
theorem C42_removal_partial (ok : Nat → V → Bool) (regs : List (Registration T V)) (hg : GoodRegs regs) (o : Owned T V)
    (h : Lived ok regs (fun o x => Respectful o x ∧ ∀ ch, x = .apply ch → Typed ok ch) o) (computed : Values V)
    (t : T) :
    let after := (opRun ok regs o (.autoRemove computed)).entity.world t
    (after = none ∨ after = o.entity.world t) ∧
    (o.entity.world t ≠ none ∧ after = none ↔
      o.owner t = some .style ∧ ∃ r ∈ regs, r.type = t ∧ r.autoInsertRemove ∧ ∀ i, Has r i → computed i = none) := by
  obtain ⟨i1, i2⟩ := lived_auto ok regs hg o h t
  have hsome : o.owner t = some .style → ∃ c, o.entity.world t = some c := by
    intro ho
    rcases hw : o.entity.world t with _ | c
    · rw [i2.2 hw] at ho; cases ho
    · exact ⟨c, rfl⟩
  simp only [opRun, opEntity]
  by_cases ht : ∃ r ∈ regs, r.type = t
  · obtain ⟨r, hr, rfl⟩ := ht
    have key := autoRemove_registered regs hg o.entity computed r hr
    have huniq : ∀ r' ∈ regs, r'.type = r.type → r' = r := by
      intro r' hr' he
      by_contra hne
      obtain ⟨as, bs, rfl⟩ := List.append_of_mem hr
      unfold GoodRegs at hg
      rw [List.pairwise_append, List.pairwise_cons] at hg
      rcases List.mem_append.1 hr' with hm | hm
      · exact (hg.2.2 r' hm r (by simp)).1 he
      · rcases List.mem_cons.1 hm with hm | hm
        · exact hne hm
        · exact (hg.2.1.1 r' hm).1 he.symm
    have hrem : removes r o.entity.world computed = true ↔
        r.autoInsertRemove = true ∧ (o.entity.world r.type).isSome = true ∧ ∀ i, Has r i → computed i = none := by
      simp only [removes, Bool.and_eq_true, List.all_eq_true, mem_ids, Option.isNone_iff_eq_none, and_assoc]
    by_cases hc : o.entity.auto r.type = true ∧ removes r o.entity.world computed = true
    · rw [if_pos hc] at key
      simp only [Prod.mk.injEq] at key
      rw [key.1]
      refine ⟨.inl rfl, ?_⟩
      obtain ⟨c1, c2, c3⟩ := hrem.1 hc.2
      constructor
      · intro _
        exact ⟨i1.1 hc.1, r, hr, rfl, c1, c3⟩
      · intro _
        exact ⟨by rw [Option.isSome_iff_ne_none] at c2; exact c2, rfl⟩
    · rw [if_neg hc] at key
      simp only [Prod.mk.injEq] at key
      rw [key.1]
      refine ⟨.inr rfl, ?_⟩
      constructor
      · rintro ⟨h1, h2⟩; exact absurd h2 h1
      · rintro ⟨ho, r', hr', he, ha, hv⟩
        rw [huniq r' hr' he] at ha hv
        obtain ⟨c, hcw⟩ := hsome ho
        exact absurd ⟨i1.2 ho, hrem.2 ⟨ha, by rw [hcw]; rfl, hv⟩⟩ hc
  · push Not at ht
    have key := autoRemove_unregistered regs o.entity computed t ht
    simp only [Prod.mk.injEq] at key
    rw [key.1]
    refine ⟨.inr rfl, ?_⟩
    constructor
    · rintro ⟨h1, h2⟩; exact absurd h2 h1
    · rintro ⟨_, r, hr, he, _⟩; exact absurd he (ht r hr)

/-- **C42**, read off: a component that the user inserted is never removed by the style. -/
theorem C42_user_stays_partial (ok : Nat → V → Bool) (regs : List (Registration T V)) (hg : GoodRegs regs)
    (o : Owned T V) (h : Lived ok regs (fun o x => Respectful o x ∧ ∀ ch, x = .apply ch → Typed ok ch) o)
    (computed : Values V) (t : T) (hu : o.owner t = some .user) :
    (opRun ok regs o (.autoRemove computed)).entity.world t = o.entity.world t := by
  obtain ⟨h1, h2⟩ := C42_removal_partial ok regs hg o h computed t
  rcases h1 with h1 | h1
  · by_cases hw : o.entity.world t = none
    · rw [hw]; exact h1
    · have := (h2.1 ⟨hw, h1⟩).1
      rw [hu] at this
      cases this
  · exact h1

private def exStep (ops : List (Op Char Nat)) : Owned Char Nat :=
  ops.foldl (opRun (fun _ _ => true) exRegs) bare

/-- A respectful history: the style inserts 'o', the user inserts 'n'; 'o' is removed when the values are
gone and 'n' stays. -/
example :
    let o := exStep [.userInsert 'n' fun _ => 1, .apply exChanges]
    Lived (fun _ _ => true) exRegs (fun o x => Respectful o x ∧ ∀ ch, x = .apply ch → Typed (fun _ _ => true) ch) o ∧
    o.owner 'o' = some .style ∧ o.owner 'n' = some .user ∧
    ((opRun (fun _ _ => true) exRegs o (.autoRemove fun _ => none)).entity.world 'o').isNone ∧
    ((opRun (fun _ _ => true) exRegs o (.autoRemove fun _ => none)).entity.world 'n').isSome := by
  refine ⟨?_, by decide, by decide, by decide, by decide⟩
  exact .op (.op .bare _ ⟨by simp [Respectful, bare], by simp⟩) _ ⟨trivial, fun _ _ _ _ _ => rfl⟩

/-- The full C42 does not hold: the style inserts 'o', the user removes it and inserts one of his own; the
next automatic removal takes the user's component away. -/
theorem C42_user_component_removed :
    let o := exStep [.apply exChanges, .userRemove 'o', .userInsert 'o' fun _ => 42]
    o.owner 'o' = some .user ∧ (o.entity.world 'o').map (fun c => c 2) = some 42 ∧
    (opRun (fun _ _ => true) exRegs o (.autoRemove fun _ => none)).entity.world 'o' = none := by
  refine ⟨by decide, by decide, ?_⟩
  rfl

end Flair.Props
