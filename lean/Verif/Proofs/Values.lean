import Verif.Spec.Values
import Verif.Tactics
namespace Flair.Values
open Flair.Spec
variable {V T : Type}

/-- The reference counts are exact and no handle dangles. -/
structure Inv (s : Heap T) : Prop where
  rc : ∀ (a rc : Nat) (vals : List T), s.cells[a]? = some (rc, vals) → rc = s.handles.count (some a)
  valid : ∀ (h a : Nat), s.handles[h]? = some (some a) → a < s.cells.length

/-- The value each handle stands for. -/
def absOf (cells : List (Nat × List T)) (o : Option Nat) : Option (List T) :=
  o.bind fun a => (cells[a]?).map (·.2)

def abs (s : Heap T) : Values T := s.handles.map (absOf s.cells)

theorem live_abs (s : Heap T) (h : Nat) : live (abs s) h = s.deref? h := by
  unfold live abs Heap.deref? Heap.addr?
  rw [List.getElem?_map]
  cases s.handles[h]? with
  | none => rfl
  | some o => cases o <;> rfl

theorem addr_some {s : Heap T} {h a : Nat} (hh : s.addr? h = some a) : s.handles[h]? = some (some a) := by
  unfold Heap.addr? at hh
  cases h1 : s.handles[h]? with
  | none => rw [h1] at hh; simp at hh
  | some o => rw [h1] at hh; simp only [Option.join_some] at hh; rw [hh]

theorem two_le_count {α : Type} [BEq α] [LawfulBEq α] (l : List α) (x : α) (i j : Nat) (hij : i < j)
    (hi : l[i]? = some x) (hj : l[j]? = some x) : 2 ≤ l.count x := by
  induction l generalizing i j with
  | nil => simp at hi
  | cons y l ih =>
    cases j with
    | zero => omega
    | succ j =>
      cases i with
      | zero =>
        simp at hi hj
        subst hi
        have : 0 < l.count y := List.count_pos_iff.mpr (List.mem_of_getElem? hj)
        rw [List.count_cons_self]; omega
      | succ i =>
        simp at hi hj
        have := ih i j (by omega) hi hj
        rw [List.count_cons]; omega

theorem inv_alloc {s : Heap T} (inv : Inv s) : s.handles.count (some s.cells.length) = 0 := by
  rw [List.count_eq_zero]
  intro hm
  obtain ⟨h, hh⟩ := List.mem_iff_getElem?.mp hm
  have := inv.valid h _ hh
  omega

theorem absOf_append (cells : List (Nat × List T)) (x : Nat × List T) (o : Option Nat)
    (h : ∀ a, o = some a → a < cells.length) : absOf (cells ++ [x]) o = absOf cells o := by
  cases o with
  | none => rfl
  | some a =>
    simp only [absOf, Option.bind_some]
    rw [List.getElem?_append_left (h a rfl)]

theorem absOf_set_same (cells : List (Nat × List T)) (a rc rc' : Nat) (vals : List T)
    (h : cells[a]? = some (rc, vals)) (o : Option Nat) :
    absOf (cells.set a (rc', vals)) o = absOf cells o := by
  cases o with
  | none => rfl
  | some b =>
    simp only [absOf, Option.bind_some]
    rw [List.getElem?_set]
    by_cases hab : a = b
    · subst hab
      obtain ⟨hl, hg⟩ := List.getElem?_eq_some_iff.mp h
      simp [hl, hg]
    · simp [hab]

theorem write_correct {s s' : Heap T} (inv : Inv s) {h i : Nat} {v : T} (hw : s.write h i v = some s') :
    ∃ m, live (abs s) h = some m ∧ i < m.length ∧ Inv s' ∧ abs s' = (abs s).set h (some (m.set i v)) := by
  unfold Heap.write at hw
  cases ha : s.addr? h with
  | none => simp [ha] at hw
  | some a =>
    simp only [ha] at hw
    cases hc : s.cells[a]? with
    | none => simp [hc] at hw
    | some c =>
      obtain ⟨rc, vals⟩ := c
      simp only [hc] at hw
      have hha := addr_some ha
      have hal := inv.valid h a hha
      obtain ⟨hhl, hhg⟩ := List.getElem?_eq_some_iff.mp hha
      have hrc := inv.rc a rc vals hc
      have hlive : live (abs s) h = some vals := by
        rw [live_abs]; simp [Heap.deref?, ha, hc]
      by_cases hi : i < vals.length
      · simp only [hi, if_true] at hw
        refine ⟨vals, hlive, hi, ?_⟩
        by_cases h1 : rc = 1
        · simp only [h1, if_true] at hw
          cases hw
          constructor
          · constructor
            · intro b rc' vals' hb
              simp only at hb ⊢
              rw [List.getElem?_set] at hb
              by_cases hab : a = b
              · subst hab
                simp only [if_true, hal] at hb
                cases hb
                rw [← h1]; exact hrc
              · simp only [hab, if_false] at hb
                exact inv.rc b rc' vals' hb
            · intro h' b hb
              simp only [List.length_set]
              exact inv.valid h' b hb
          · apply List.ext_getElem?
            intro k
            simp only [abs, List.getElem?_map, List.getElem?_set, List.length_map]
            by_cases hk : h = k
            · subst hk
              simp [hhg, hhl, absOf, hal]
            · simp only [hk, if_false]
              cases hkk : s.handles[k]? with
              | none => rfl
              | some o =>
                cases o with
                | none => rfl
                | some b =>
                  have : b ≠ a := by
                    rintro rfl
                    rcases Nat.lt_or_ge h k with hlt | hge
                    · have := two_le_count _ _ h k hlt hha hkk; omega
                    · have := two_le_count _ _ k h (by omega) hkk hha; omega
                  simp [absOf, List.getElem?_set, this.symm]
        · simp only [h1, if_false] at hw
          cases hw
          have hfresh := inv_alloc inv
          constructor
          · constructor
            · intro b rc' vals' hb
              simp only at hb ⊢
              rw [List.count_set hhl]
              rw [hhg]
              by_cases hbl : b < s.cells.length
              · rw [List.getElem?_append_left (by simpa using hbl), List.getElem?_set] at hb
                have hne : (some s.cells.length == some b) = false := by
                  simp; omega
                rw [hne]
                by_cases hab : a = b
                · subst hab
                  simp only [if_true, hal] at hb
                  cases hb
                  simp [hrc]
                · simp only [hab, if_false] at hb
                  have := inv.rc b rc' vals' hb
                  simp [hab, this]
              · have hbe : b = s.cells.length := by
                  have := (List.getElem?_eq_some_iff.mp hb).1
                  simp at this; omega
                subst hbe
                rw [List.getElem?_append_right (by simp)] at hb
                simp at hb
                have hne : (some a == some s.cells.length) = false := by simp; omega
                rw [hne]
                simp [hfresh, hb.1]
            · intro h' b hb
              simp only [List.getElem?_set] at hb
              simp only [List.length_append, List.length_set, List.length_singleton]
              by_cases hk : h = h'
              · subst hk
                simp only [if_true, hhl] at hb
                cases hb; omega
              · simp only [hk, if_false] at hb
                have := inv.valid h' b hb; omega
          · apply List.ext_getElem?
            intro k
            simp only [abs, List.getElem?_map, List.getElem?_set, List.length_map]
            by_cases hk : h = k
            · subst hk
              simp only [if_true, hhl]
              simp [absOf]
            · simp only [hk, if_false]
              cases hkk : s.handles[k]? with
              | none => rfl
              | some o =>
                simp only [Option.map_some]
                rw [absOf_append _ _ _ (by
                  rintro b rfl
                  simpa using inv.valid k b hkk)]
                rw [absOf_set_same _ _ _ _ _ hc]
      · simp [hi] at hw

theorem write_total {s : Heap T} {h i : Nat} {v : T} {m : List T}
    (hl : live (abs s) h = some m) (hi : i < m.length) : ∃ s', s.write h i v = some s' := by
  rw [live_abs] at hl
  unfold Heap.deref? at hl
  cases ha : s.addr? h with
  | none => simp [ha] at hl
  | some a =>
    simp only [ha, Option.bind_some, Option.map_eq_some_iff] at hl
    obtain ⟨⟨rc, vals⟩, hc, rfl⟩ := hl
    unfold Heap.write
    simp only [ha, hc]
    simp only at hi
    by_cases h1 : rc = 1 <;> simp [hi, h1]

variable [DecidableEq T]

theorem step_sound {s s' : Heap T} {op : Op T} {o : Out T} (inv : Inv s) (hs : s.step op = some (s', o)) :
    Inv s' ∧ ValueStep (abs s) op (abs s') o := by
  have hlen : (abs s).length = s.handles.length := by simp [abs]
  cases op with
  | new vals =>
    simp only [Heap.step, Option.some.injEq, Prod.mk.injEq] at hs
    obtain ⟨rfl, rfl⟩ := hs
    have hfresh := inv_alloc inv
    refine ⟨⟨?_, ?_⟩, ?_⟩
    · intro b rc vals' hb
      simp only at hb ⊢
      rw [List.count_append, List.count_singleton]
      by_cases hbl : b < s.cells.length
      · rw [List.getElem?_append_left hbl] at hb
        have hne : (some s.cells.length == some b) = false := by simp; omega
        rw [hne, ← inv.rc b rc vals' hb]; simp
      · have hbe : b = s.cells.length := by
          have := (List.getElem?_eq_some_iff.mp hb).1
          simp at this; omega
        subst hbe
        simp at hb
        simp [hfresh, hb.1]
    · intro h a hh
      simp only [List.length_append, List.length_singleton]
      by_cases hl : h < s.handles.length
      · simp only [List.getElem?_append_left hl] at hh
        have := inv.valid h a hh; omega
      · have : h = s.handles.length := by
          have := (List.getElem?_eq_some_iff.mp hh).1
          simp at this; omega
        subst this
        simp at hh; omega
    · have : abs { cells := s.cells ++ [(1, vals)], handles := s.handles ++ [some s.cells.length] }
          = abs s ++ [some vals] := by
        simp only [abs, List.map_append, List.map_cons, List.map_nil]
        congr 1
        · apply List.map_congr_left
          intro o ho
          apply absOf_append
          rintro a rfl
          obtain ⟨h, hh⟩ := List.mem_iff_getElem?.mp ho
          exact inv.valid h a hh
        · simp [absOf]
      rw [this, ← hlen]
      exact .new vals
  | clone h =>
    simp only [Heap.step] at hs
    cases ha : s.addr? h with
    | none => simp [ha] at hs
    | some a =>
      simp only [ha] at hs
      cases hc : s.cells[a]? with
      | none => simp [hc] at hs
      | some c =>
        obtain ⟨rc, vals⟩ := c
        simp only [hc, Option.some.injEq, Prod.mk.injEq] at hs
        obtain ⟨rfl, rfl⟩ := hs
        have hha := addr_some ha
        have hal := inv.valid h a hha
        refine ⟨⟨?_, ?_⟩, ?_⟩
        · intro b rc' vals' hb
          simp only [List.getElem?_set] at hb ⊢
          rw [List.count_append, List.count_singleton]
          by_cases hab : a = b
          · subst hab
            simp only [if_true, hal] at hb
            cases hb
            simp [inv.rc a rc vals hc]
          · simp only [hab, if_false] at hb
            simp [hab, ← inv.rc b rc' vals' hb]
        · intro h' b hb
          simp only [List.length_set]
          by_cases hl : h' < s.handles.length
          · simp only [List.getElem?_append_left hl] at hb
            exact inv.valid h' b hb
          · have : h' = s.handles.length := by
              have := (List.getElem?_eq_some_iff.mp hb).1
              simp at this; omega
            subst this
            simp at hb; omega
        · have hm : live (abs s) h = some vals := by
            rw [live_abs]; simp [Heap.deref?, ha, hc]
          have : abs { cells := s.cells.set a (rc + 1, vals), handles := s.handles ++ [some a] }
              = abs s ++ [some vals] := by
            simp only [abs, List.map_append, List.map_cons, List.map_nil]
            congr 1
            · apply List.map_congr_left
              intro o _
              exact absOf_set_same _ _ _ _ _ hc o
            · rw [absOf_set_same _ _ _ _ _ hc]; simp [absOf, hc]
          rw [this, ← hlen]
          exact .clone h vals hm
  | drop h =>
    simp only [Heap.step] at hs
    cases ha : s.addr? h with
    | none => simp [ha] at hs
    | some a =>
      simp only [ha] at hs
      cases hc : s.cells[a]? with
      | none => simp [hc] at hs
      | some c =>
        obtain ⟨rc, vals⟩ := c
        simp only [hc, Option.some.injEq, Prod.mk.injEq] at hs
        obtain ⟨rfl, rfl⟩ := hs
        have hha := addr_some ha
        have hal := inv.valid h a hha
        obtain ⟨hhl, hhg⟩ := List.getElem?_eq_some_iff.mp hha
        refine ⟨⟨?_, ?_⟩, ?_⟩
        · intro b rc' vals' hb
          simp only [List.getElem?_set] at hb ⊢
          rw [List.count_set hhl, hhg]
          by_cases hab : a = b
          · subst hab
            simp only [if_true, hal] at hb
            cases hb
            simp [inv.rc a rc vals hc]
          · simp only [hab, if_false] at hb
            simp [hab, ← inv.rc b rc' vals' hb]
        · intro h' b hb
          simp only [List.length_set]
          simp only [List.getElem?_set] at hb
          by_cases hk : h = h'
          · subst hk; simp at hb
          · simp only [hk, if_false] at hb
            exact inv.valid h' b hb
        · have hm : live (abs s) h = some vals := by
            rw [live_abs]; simp [Heap.deref?, ha, hc]
          have : abs { cells := s.cells.set a (rc - 1, vals), handles := s.handles.set h none }
              = (abs s).set h none := by
            simp only [abs, List.map_set]
            congr 1
            apply List.map_congr_left
            intro o _
            exact absOf_set_same _ _ _ _ _ hc o
          rw [this]
          exact .drop h vals hm
  | get h i =>
    simp only [Heap.step, Option.map_eq_some_iff, Prod.mk.injEq] at hs
    obtain ⟨v, hv, rfl, rfl⟩ := hs
    rw [← live_abs] at hv
    obtain ⟨m, hm, hmi⟩ := Option.bind_eq_some_iff.mp hv
    exact ⟨inv, .get h i m v hm hmi⟩
  | set h i v =>
    simp only [Heap.step, Option.map_eq_some_iff, Prod.mk.injEq] at hs
    obtain ⟨s1, hw, rfl, rfl⟩ := hs
    obtain ⟨m, h1, h2, h3, h4⟩ := write_correct inv hw
    rw [h4]
    exact ⟨h3, .set h i v m h1 h2⟩
  | setIfNeq h i v =>
    simp only [Heap.step] at hs
    cases hg : (s.deref? h).bind (·[i]?) with
    | none => simp [hg] at hs
    | some cur =>
      simp only [hg] at hs
      rw [← live_abs] at hg
      obtain ⟨m, hm, hmi⟩ := Option.bind_eq_some_iff.mp hg
      obtain ⟨hil, hig⟩ := List.getElem?_eq_some_iff.mp hmi
      by_cases hcv : cur = v
      · simp only [hcv, ne_eq, not_true, if_false, Option.some.injEq, Prod.mk.injEq] at hs
        obtain ⟨rfl, rfl⟩ := hs
        refine ⟨inv, ?_⟩
        have hstep := ValueStep.setIfNeq (s := abs s) h i v m hm hil
        have hset : m.set i v = m := by rw [← hcv, ← hig]; exact List.set_getElem_self hil
        have hset2 : (abs s).set h (some m) = abs s := by
          have hlk : (abs s)[h]? = some (some m) := by
            unfold live at hm
            cases hx : (abs s)[h]? with
            | none => rw [hx] at hm; simp at hm
            | some y => rw [hx] at hm; simp at hm; rw [hm]
          obtain ⟨hl', hg'⟩ := List.getElem?_eq_some_iff.mp hlk
          rw [← hg']; exact List.set_getElem_self hl'
        rw [hset, hset2] at hstep
        have hb : decide (m[i]? ≠ some v) = false := by simp [hmi, hcv]
        rw [hb] at hstep
        exact hstep
      · simp only [ne_eq, hcv, not_false_iff, if_true, Option.map_eq_some_iff, Prod.mk.injEq] at hs
        obtain ⟨s1, hw, rfl, rfl⟩ := hs
        obtain ⟨m', h1, h2, h3, h4⟩ := write_correct inv hw
        rw [hm] at h1; cases h1
        rw [h4]
        have hstep := ValueStep.setIfNeq (s := abs s) h i v m hm hil
        have hb : decide (m[i]? ≠ some v) = true := by simp [hmi, hcv]
        rw [hb] at hstep
        exact ⟨h3, hstep⟩
  | ptrEq a b =>
    simp only [Heap.step] at hs
    cases ha : s.addr? a with
    | none => simp [ha] at hs
    | some x =>
      cases hb : s.addr? b with
      | none => simp [ha, hb] at hs
      | some y =>
        simp only [ha, hb, Option.some.injEq, Prod.mk.injEq] at hs
        obtain ⟨rfl, rfl⟩ := hs
        refine ⟨inv, ?_⟩
        have key : ∀ h z, s.addr? h = some z → ∃ c, s.cells[z]? = some c ∧ live (abs s) h = some c.2 := by
          intro h z hz
          have := inv.valid h z (addr_some hz)
          refine ⟨s.cells[z], List.getElem?_eq_some_iff.mpr ⟨this, rfl⟩, ?_⟩
          rw [live_abs]; simp [Heap.deref?, hz, this]
        obtain ⟨c, hc, hlc⟩ := key a x ha
        obtain ⟨d, hd, hld⟩ := key b y hb
        refine .ptrEq a b c.2 d.2 _ hlc hld ?_
        intro hxy
        simp at hxy; subst hxy
        rw [hc] at hd; cases hd; rfl
  | eq a b =>
    simp only [Heap.step] at hs
    cases ha : s.deref? a with
    | none => simp [ha] at hs
    | some x =>
      cases hb : s.deref? b with
      | none => simp [ha, hb] at hs
      | some y =>
        simp only [ha, hb, Option.some.injEq, Prod.mk.injEq] at hs
        obtain ⟨rfl, rfl⟩ := hs
        rw [← live_abs] at ha hb
        have := ValueStep.eq (s := abs s) a b x y ha hb
        refine ⟨inv, ?_⟩
        have hxy : (x == y) = decide (x = y) := by
          by_cases h : x = y <;> simp [h]
        rw [hxy]; exact this

omit [DecidableEq T] in
theorem live_addr {s : Heap T} {h : Nat} {m : List T} (hl : live (abs s) h = some m) :
    ∃ a rc, s.addr? h = some a ∧ s.cells[a]? = some (rc, m) := by
  rw [live_abs] at hl
  unfold Heap.deref? at hl
  cases ha : s.addr? h with
  | none => simp [ha] at hl
  | some a =>
    simp only [ha, Option.bind_some, Option.map_eq_some_iff] at hl
    obtain ⟨⟨rc, vals⟩, hc, rfl⟩ := hl
    exact ⟨a, rc, rfl, hc⟩

/-- The implementation never gets stuck when the value semantics can go on. -/
theorem step_total {s : Heap T} {op : Op T} {t : Values T} {o : Out T}
    (hv : ValueStep (abs s) op t o) : ∃ s' o', s.step op = some (s', o') := by
  cases hv with
  | new vals => exact ⟨_, _, rfl⟩
  | clone h m hm =>
    obtain ⟨a, rc, ha, hc⟩ := live_addr hm
    simp [Heap.step, ha, hc]
  | drop h m hm =>
    obtain ⟨a, rc, ha, hc⟩ := live_addr hm
    simp [Heap.step, ha, hc]
  | get h i m v hm hi =>
    rw [live_abs] at hm
    simp [Heap.step, hm, hi]
  | set h i v m hm hi =>
    obtain ⟨s', hs'⟩ := write_total (v := v) hm hi
    simp [Heap.step, hs']
  | setIfNeq h i v m hm hi =>
    obtain ⟨s', hs'⟩ := write_total (v := v) hm hi
    rw [live_abs] at hm
    have : m[i]? = some m[i] := List.getElem?_eq_getElem hi
    simp only [Heap.step, hm, Option.bind_some, this]
    by_cases h : m[i] = v <;> simp [h, hs']
  | ptrEq a b m m' r ha hb _ =>
    obtain ⟨x, _, hx, _⟩ := live_addr ha
    obtain ⟨y, _, hy, _⟩ := live_addr hb
    simp [Heap.step, hx, hy]
  | eq a b m m' ha hb =>
    rw [live_abs] at ha hb
    simp [Heap.step, ha, hb]

theorem run_sound (ops : List (Op T)) : ∀ {s s' : Heap T} {os : List (Out T)}, Inv s →
    s.run ops = some (s', os) → Inv s' ∧ ValueRun (abs s) ops (abs s') os := by
  induction ops with
  | nil =>
    intro s s' os inv h
    simp only [Heap.run, Option.some.injEq, Prod.mk.injEq] at h
    obtain ⟨rfl, rfl⟩ := h
    exact ⟨inv, .nil _⟩
  | cons op ops ih =>
    intro s s' os inv h
    simp only [Heap.run] at h
    cases hs : s.step op with
    | none => simp [hs] at h
    | some x =>
      obtain ⟨s1, o⟩ := x
      simp only [hs, Option.map_eq_some_iff] at h
      obtain ⟨⟨s2, os2⟩, hr, heq⟩ := h
      simp only [Prod.mk.injEq] at heq
      obtain ⟨rfl, rfl⟩ := heq
      obtain ⟨inv1, st⟩ := step_sound inv hs
      obtain ⟨inv2, vr⟩ := ih inv1 hr
      exact ⟨inv2, .cons _ _ _ _ _ _ _ st vr⟩

omit [DecidableEq T] in
theorem inv_empty : Inv ({ cells := [], handles := [] } : Heap T) :=
  ⟨by intro a rc v h; simp at h, by intro h a hh; simp at hh⟩

end Flair.Values
