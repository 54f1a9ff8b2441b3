import Verif.Spec.Registry
import Verif.Tactics
import Mathlib.Data.List.Nodup
import Mathlib.Data.List.Range
/-!
# C39, C40: property registries
-/
namespace Flair.Registry
open Flair.Spec
variable {N T V C : Type} [DecidableEq N] [DecidableEq T] [DecidableEq C]
set_option linter.unusedSectionVars false

/-- Registry invariant. -/
structure Ok (r : Reg N T V) : Prop where
  nodup : r.props.Nodup
  names : ∀ n (i : Nat), r.names n = some i ↔ r.props[i]? = some n
  unset : r.unset.length = r.props.length

theorem Ok.isSome_iff {r : Reg N T V} (h : Ok r) (n : N) : (r.names n).isSome ↔ n ∈ r.props := by
  rw [Option.isSome_iff_exists, List.mem_iff_getElem?]
  exact exists_congr fun i => h.names n i

theorem addProp_ok (dflt : V) {r : Reg N T V} (h : Ok r) (n : N) (hn : n ∉ r.props) :
    ∃ r', r.addProp dflt n = some r' ∧ Ok r' ∧ r'.props = r.props ++ [n] ∧ r'.regs = r.regs := by
  have : (r.names n).isSome = false := by
    rw [← Bool.not_eq_true, h.isSome_iff]; exact hn
  refine ⟨{ r with
    props := r.props ++ [n]
    unset := r.unset ++ [dflt]
    names := fun m => if m = n then some r.props.length else r.names m },
    by unfold Reg.addProp; rw [this]; rfl, ⟨?_, ?_, ?_⟩, rfl, rfl⟩
  · simp only [List.nodup_append, h.nodup, true_and]
    simp only [List.nodup_cons, List.not_mem_nil, not_false_eq_true, List.nodup_nil, and_self, List.mem_singleton,
      true_and]
    rintro a ha b rfl rfl
    exact hn ha
  · intro m i
    by_cases hm : m = n
    · subst hm
      simp only [↓reduceIte, Option.some.injEq]
      constructor
      · rintro rfl; simp
      · intro hi
        rcases Nat.lt_trichotomy i r.props.length with hl | hl | hl
        · rw [List.getElem?_append_left hl] at hi
          exact absurd (List.mem_of_getElem? hi) hn
        · exact hl.symm
        · rw [List.getElem?_eq_none (by simp; omega)] at hi
          simp at hi
    · simp only [hm, ↓reduceIte, h.names]
      rcases Nat.lt_trichotomy i r.props.length with hl | hl | hl
      · rw [List.getElem?_append_left hl]
      · subst hl
        simp [Ne.symm hm]
      · rw [List.getElem?_eq_none (by omega), List.getElem?_eq_none (by simp; omega)]
  · simp [h.unset]

theorem addProp_none (dflt : V) {r : Reg N T V} (h : Ok r) (n : N) (hn : n ∈ r.props) :
    r.addProp dflt n = none := by
  unfold Reg.addProp
  rw [if_pos ((h.isSome_iff n).2 hn)]

theorem foldlM_addProp (dflt : V) (ns : List N) {r : Reg N T V} (h : Ok r) :
    ((r.props ++ ns).Nodup → ∃ r', ns.foldlM (Reg.addProp dflt) r = some r' ∧ Ok r' ∧ r'.props = r.props ++ ns ∧
      r'.regs = r.regs) ∧
    (¬ (r.props ++ ns).Nodup → ns.foldlM (Reg.addProp dflt) r = none) := by
  induction ns generalizing r with
  | nil => exact ⟨fun _ => ⟨r, rfl, h, by simp, rfl⟩, fun hn => absurd h.nodup (by simpa using hn)⟩
  | cons n ns ih =>
    by_cases hn : n ∈ r.props
    · refine ⟨fun hd => ?_, fun _ => by simp [List.foldlM_cons, addProp_none dflt h n hn]⟩
      rw [List.nodup_append] at hd
      exact absurd rfl (hd.2.2 n hn n (by simp))
    · obtain ⟨r1, h1, h2, h3, h4⟩ := addProp_ok dflt h n hn
      obtain ⟨i1, i2⟩ := ih h2
      have hrw : r1.props ++ ns = r.props ++ n :: ns := by rw [h3]; simp
      rw [hrw] at i1 i2
      refine ⟨fun hd => ?_, fun hd => ?_⟩
      · obtain ⟨r', e1, e2, e3, e4⟩ := i1 hd
        exact ⟨r', by simp [List.foldlM_cons, h1, e1], e2, e3, by rw [e4, h4]⟩
      · simp [List.foldlM_cons, h1, i2 hd]

/-- The registrations of a history: each component with the range of its names. -/
def regsFrom : Nat → List (RegOp N T V) → List (T × Nat × Nat)
  | _, [] => []
  | k, .component t ns :: ops => (t, k, k + ns.length) :: regsFrom (k + ns.length) ops
  | k, .properties ns :: ops => regsFrom (k + ns.length) ops
  | k, .unset _ _ :: ops => regsFrom k ops

theorem setUnset_some {r r' : Reg N T V} {p : Ref N} {v : V} (h : Ok r) (he : r.setUnset p v = some r') :
    Ok r' ∧ r'.props = r.props ∧ r'.regs = r.regs := by
  unfold Reg.setUnset at he
  rcases hr : r.resolve p with _ | i
  · simp [hr] at he
  · simp only [hr, Option.bind_some] at he
    split at he
    · cases he
      exact ⟨⟨h.nodup, h.names, by simp [h.unset]⟩, rfl, rfl⟩
    · cases he

/-- What a successful history gives. -/
theorem history_some (dflt : V) (ops : List (RegOp N T V)) : ∀ (r r' : Reg N T V), Ok r →
    (r.regs.map Prod.fst).Nodup → ops.foldlM (RegOp.run dflt) r = some r' →
    Ok r' ∧ r'.props = r.props ++ ops.flatMap RegOp.props ∧
      r'.regs = r.regs ++ regsFrom r.props.length ops ∧ (r'.regs.map Prod.fst).Nodup := by
  induction ops with
  | nil =>
    intro r r' h hn he
    simp only [List.foldlM_nil, Option.pure_def, Option.some.injEq] at he
    subst he
    exact ⟨h, by simp, by simp [regsFrom], hn⟩
  | cons op ops ih =>
    intro r r' h hn he
    rw [List.foldlM_cons] at he
    rcases hop : RegOp.run dflt r op with _ | r1
    · simp [hop] at he
    · simp only [hop, Option.bind_eq_bind, Option.bind_some] at he
      rcases op with ⟨t, ns⟩ | ⟨ns⟩ | ⟨p, v⟩
      · simp only [RegOp.run, Reg.register, Reg.addProps] at hop
        by_cases hd : (r.props ++ ns).Nodup
        · obtain ⟨r2, e1, e2, e3, e4⟩ := (foldlM_addProp dflt ns h).1 hd
          simp only [e1, Option.map_some, Option.bind_some, Reg.addRegistration] at hop
          split at hop
          · cases hop
          · rename_i hany
            cases hop
            have hnot : t ∉ r.regs.map Prod.fst := by
              rw [e4] at hany
              simpa using hany
            obtain ⟨a1, a2, a3, a4⟩ := ih { r2 with regs := r2.regs ++ [(t, r.props.length, r2.props.length)] } r'
              ⟨e2.nodup, e2.names, e2.unset⟩ (by
                simp only [List.map_append, e4, List.map_cons, List.map_nil]
                rw [List.nodup_append]
                refine ⟨hn, by simp, ?_⟩
                rintro a ha b hb rfl
                simp only [List.mem_singleton] at hb
                subst hb
                exact hnot ha) he
            refine ⟨a1, ?_, ?_, a4⟩
            · rw [a2]; simp [e3, RegOp.props]
            · rw [a3]; simp [e3, e4, regsFrom]
        · rw [(foldlM_addProp dflt ns h).2 hd] at hop
          simp at hop
      · simp only [RegOp.run, Reg.addProps] at hop
        by_cases hd : (r.props ++ ns).Nodup
        · obtain ⟨r2, e1, e2, e3, e4⟩ := (foldlM_addProp dflt ns h).1 hd
          simp only [e1, Option.map_some, Option.some.injEq] at hop
          subst hop
          obtain ⟨a1, a2, a3, a4⟩ := ih r2 r' e2 (e4 ▸ hn) he
          refine ⟨a1, ?_, ?_, a4⟩
          · rw [a2]; simp [e3, RegOp.props]
          · rw [a3]; simp [e3, e4, regsFrom]
        · rw [(foldlM_addProp dflt ns h).2 hd] at hop
          simp at hop
      · obtain ⟨e2, e3, e4⟩ := setUnset_some h hop
        obtain ⟨a1, a2, a3, a4⟩ := ih r1 r' e2 (e4 ▸ hn) he
        refine ⟨a1, ?_, ?_, a4⟩
        · rw [a2]; simp [e3, RegOp.props]
        · rw [a3]; simp [e3, e4, regsFrom]

theorem empty_ok : Ok (Reg.empty : Reg N T V) := ⟨by simp [Reg.empty], by simp [Reg.empty], rfl⟩

theorem history_facts (dflt : V) (ops : List (RegOp N T V)) (r : Reg N T V) (h : regHistory dflt ops = some r) :
    Ok r ∧ r.props = ops.flatMap RegOp.props ∧ r.regs = regsFrom 0 ops ∧ (r.regs.map Prod.fst).Nodup := by
  simpa [Reg.empty] using history_some dflt ops Reg.empty r empty_ok (by simp [Reg.empty]) h

/-- As `RegOp.setsUnset`, the name being the one registered for the id. -/
def setsAt (props : List N) (i : Nat) : RegOp N T V → Option V
  | .unset (.id j) v => if j = i then some v else none
  | .unset (.name m) v => if props[i]? = some m then some v else none
  | _ => none

theorem addProp_unset (dflt : V) (r r' : Reg N T V) (n : N) (h : r.addProp dflt n = some r') :
    r'.unset = r.unset ++ [dflt] := by
  unfold Reg.addProp at h
  split at h
  · cases h
  · cases h; rfl

theorem addProps_unset (dflt : V) (ns : List N) : ∀ (r r' : Reg N T V),
    ns.foldlM (Reg.addProp dflt) r = some r' → r'.unset = r.unset ++ List.replicate ns.length dflt := by
  induction ns with
  | nil => intro r r' h; simp at h; simp [h]
  | cons n ns ih =>
    intro r r' h
    rw [List.foldlM_cons] at h
    obtain ⟨r1, h1, h2⟩ := Option.bind_eq_some_iff.mp h
    rw [ih r1 r' h2, addProp_unset dflt r r1 n h1]
    simp [List.replicate_succ]

theorem unset_snoc (dflt : V) (op : RegOp N T V) (r r' : Reg N T V) (hok : Ok r) (hop : op.run dflt r = some r') :
    (∀ i, i < r.unset.length → r'.unset[i]? = some ((setsAt r'.props i op).getD (r.unset[i]?.getD dflt))) ∧
    (∀ i, r.unset.length ≤ i → i < r'.unset.length → r'.unset[i]? = some dflt ∧ setsAt r'.props i op = none) := by
  cases op with
  | component t ns =>
    simp only [RegOp.run, Reg.register, Reg.addProps, Reg.addRegistration] at hop
    obtain ⟨x, hx, hop⟩ := Option.bind_eq_some_iff.mp hop
    obtain ⟨r2, h2, rfl⟩ := Option.map_eq_some_iff.mp hx
    have hu := addProps_unset dflt ns r r2 h2
    split at hop
    · cases hop
    · cases hop
      refine ⟨fun i hi => ?_, fun i hi hi' => ?_⟩
      · simp only [setsAt, Option.getD_none]
        rw [hu, List.getElem?_append_left hi, List.getElem?_eq_getElem hi]; rfl
      · simp only at hi' ⊢
        rw [hu] at hi' ⊢
        refine ⟨?_, rfl⟩
        rw [List.getElem?_append_right hi, List.getElem?_replicate, if_pos]
        simp at hi'; omega
  | properties ns =>
    simp only [RegOp.run, Reg.addProps] at hop
    obtain ⟨x, hx, rfl⟩ := Option.map_eq_some_iff.mp hop
    obtain ⟨r2, h2, rfl⟩ := Option.map_eq_some_iff.mp hx
    have hu := addProps_unset dflt ns r r2 h2
    refine ⟨fun i hi => ?_, fun i hi hi' => ?_⟩
    · simp only [setsAt, Option.getD_none]
      rw [hu, List.getElem?_append_left hi, List.getElem?_eq_getElem hi]; rfl
    · simp only at hi' ⊢
      rw [hu] at hi' ⊢
      refine ⟨?_, rfl⟩
      rw [List.getElem?_append_right hi, List.getElem?_replicate, if_pos]
      simp at hi'; omega
  | unset p v =>
    simp only [RegOp.run, Reg.setUnset] at hop
    obtain ⟨j, hj, hop⟩ := Option.bind_eq_some_iff.mp hop
    split at hop
    · rename_i hlt
      cases hop
      refine ⟨fun i hi => ?_, fun i hi hi' => ?_⟩
      · simp only
        have hs : setsAt r.props i (.unset p v : RegOp N T V) = if j = i then some v else none := by
          cases p with
          | id k => simp only [Reg.resolve, Option.some.injEq] at hj; subst hj; rfl
          | name m =>
            simp only [Reg.resolve] at hj
            simp only [setsAt]
            have : r.props[i]? = some m ↔ j = i := by
              rw [← hok.names m i, hj]; simp
            simp only [this]
        rw [hs, List.getElem?_set]
        split
        · rename_i e
          subst e
          simp [hlt]
        · rw [List.getElem?_eq_getElem hi]; rfl
      · simp at hi'; omega
    · cases hop

theorem unset_history (dflt : V) (ops : List (RegOp N T V)) (r : Reg N T V) (h : regHistory dflt ops = some r)
    (i : Nat) (hi : i < r.unset.length) :
    r.unset[i]? = some ((ops.filterMap (setsAt r.props i)).getLast?.getD dflt) := by
  induction ops using List.reverseRecOn generalizing r i with
  | nil => simp [regHistory, Reg.empty] at h; subst h; simp at hi
  | append_singleton ops op ih =>
    have h' := h
    unfold regHistory at h
    rw [List.foldlM_append] at h
    obtain ⟨r1, h1, h2⟩ := Option.bind_eq_some_iff.mp h
    simp only [List.foldlM_cons, List.foldlM_nil, Option.pure_def, Option.bind_eq_bind, Option.bind_fun_some] at h2
    obtain ⟨ok1, p1, -, -⟩ := history_facts dflt ops r1 h1
    obtain ⟨ok2, p2, -, -⟩ := history_facts dflt _ r h'
    have hprops : r.props = r1.props ++ op.props := by rw [p2, p1]; simp
    have hsame : ∀ k, k < r1.unset.length → ∀ op' : RegOp N T V, setsAt r.props k op' = setsAt r1.props k op' := by
      intro k hk op'
      have : r.props[k]? = r1.props[k]? := by
        rw [hprops, List.getElem?_append_left (by rw [← ok1.unset]; exact hk)]
      cases op' with
      | unset p v => cases p <;> simp [setsAt, this]
      | _ => rfl
    obtain ⟨s1, s2⟩ := unset_snoc dflt op r1 r ok1 h2
    rw [List.filterMap_append]
    by_cases hl : i < r1.unset.length
    · have hf : ops.filterMap (setsAt r.props i) = ops.filterMap (setsAt r1.props i) := by
        congr 1; funext o; exact hsame i hl o
      rw [s1 i hl, ih r1 h1 i hl, hf]
      cases hs : setsAt r.props i op with
      | none => simp [hs]
      | some v => simp [hs]
    · push Not at hl
      obtain ⟨e1, e2⟩ := s2 i hl hi
      rw [e1]
      have hnone : ops.filterMap (setsAt r.props i) = [] := by
        rw [List.filterMap_eq_nil_iff]
        intro o ho
        cases o with
        | unset p v =>
          obtain ⟨l1, l2, rfl⟩ := List.append_of_mem ho
          rw [List.foldlM_append] at h1
          obtain ⟨r0, h3, h4⟩ := Option.bind_eq_some_iff.mp h1
          rw [List.foldlM_cons] at h4
          obtain ⟨r0', h5, h6⟩ := Option.bind_eq_some_iff.mp h4
          obtain ⟨ok0, p0, -, -⟩ := history_facts dflt l1 r0 h3
          simp only [RegOp.run, Reg.setUnset] at h5
          obtain ⟨j, hj, h5⟩ := Option.bind_eq_some_iff.mp h5
          split at h5
          · rename_i hlt
            have hle : r0.unset.length ≤ r1.unset.length := by
              rw [ok0.unset, ok1.unset, p0, p1]; simp
            cases p with
            | id k =>
              simp only [Reg.resolve, Option.some.injEq] at hj
              subst hj
              simp only [setsAt]
              rw [if_neg (by omega)]
            | name m =>
              simp only [Reg.resolve] at hj
              simp only [setsAt]
              rw [if_neg]
              intro hm
              have hj' := (ok0.names m j).1 hj
              have hj2 : r.props[j]? = some m := by
                rw [p2, List.flatMap_append, List.flatMap_append, ← p0]
                rw [List.getElem?_append_left (by
                  rw [List.length_append]; have := (List.getElem?_eq_some_iff.1 hj').1; omega),
                  List.getElem?_append_left (List.getElem?_eq_some_iff.1 hj').1]
                exact hj'
              have e3 := (ok2.names m i).2 hm
              have e4 := (ok2.names m j).2 hj2
              rw [e3] at e4
              cases e4
              omega
          · cases h5
        | _ => rfl
      simp [hnone, e2]

theorem regsFrom_bounds (ops : List (RegOp N T V)) (k : Nat) (x : T × Nat × Nat) (hx : x ∈ regsFrom k ops) :
    k ≤ x.2.1 ∧ x.2.1 ≤ x.2.2 ∧ x.2.2 ≤ k + (ops.flatMap RegOp.props).length := by
  induction ops generalizing k with
  | nil => simp [regsFrom] at hx
  | cons op ops ih =>
    rcases op with ⟨t, ns⟩ | ⟨ns⟩ | ⟨p, v⟩
    · simp only [regsFrom, List.mem_cons] at hx
      simp only [List.flatMap_cons, RegOp.props, List.length_append]
      rcases hx with rfl | hx
      · simp
      · have := ih _ hx; omega
    · simp only [regsFrom] at hx
      simp only [List.flatMap_cons, RegOp.props, List.length_append]
      have := ih _ hx; omega
    · simp only [regsFrom] at hx
      simp only [List.flatMap_cons, RegOp.props, List.length_append]
      have := ih _ hx; simp only [List.length_nil]; omega

theorem regsFrom_pairwise (ops : List (RegOp N T V)) (k : Nat) :
    (regsFrom k ops).Pairwise fun a b => a.2.2 ≤ b.2.1 := by
  induction ops generalizing k with
  | nil => simp [regsFrom]
  | cons op ops ih =>
    rcases op with ⟨t, ns⟩ | ⟨ns⟩ | ⟨p, v⟩
    · simp only [regsFrom, List.pairwise_cons, ih, and_true]
      intro b hb
      exact (regsFrom_bounds ops _ b hb).1
    · exact ih _
    · exact ih _

theorem regsFrom_append (a b : List (RegOp N T V)) (k : Nat) :
    regsFrom k (a ++ b) = regsFrom k a ++ regsFrom (k + (a.flatMap RegOp.props).length) b := by
  induction a generalizing k with
  | nil => simp [regsFrom]
  | cons op a ih =>
    rcases op with ⟨t, ns⟩ | ⟨ns⟩ | ⟨p, v⟩ <;>
      simp [regsFrom, ih, RegOp.props, Nat.add_assoc]

theorem find_of_nodup {l : List (T × Nat × Nat)} (hn : (l.map Prod.fst).Nodup) {x : T × Nat × Nat} (hx : x ∈ l) :
    l.find? (fun y => y.1 = x.1) = some x := by
  induction l with
  | nil => simp at hx
  | cons y l ih =>
    simp only [List.map_cons, List.nodup_cons] at hn
    rcases List.mem_cons.1 hx with rfl | hx
    · simp
    · have : y.1 ≠ x.1 := by
        intro he
        exact hn.1 (he ▸ List.mem_map_of_mem hx)
      simp [this, ih hn.2 hx]

theorem history_isSome (dflt : V) (ops : List (RegOp N T V)) : ∀ (r : Reg N T V), Ok r →
    (r.regs.map Prod.fst).Nodup → (∀ op ∈ ops, ∀ p v, op ≠ .unset p v) →
    (r.props ++ ops.flatMap RegOp.props).Nodup → (r.regs.map Prod.fst ++ ops.filterMap RegOp.component?).Nodup →
    (ops.foldlM (RegOp.run dflt) r).isSome := by
  induction ops with
  | nil => intros; rfl
  | cons op ops ih =>
    intro r h hn hu hp hc
    have hu' := fun op ho => hu op (List.mem_cons_of_mem _ ho)
    rw [List.foldlM_cons]
    rcases op with ⟨t, ns⟩ | ⟨ns⟩ | ⟨p, v⟩
    · simp only [List.flatMap_cons, RegOp.props, ← List.append_assoc] at hp
      have hd := hp.of_append_left
      obtain ⟨r2, e1, e2, e3, e4⟩ := (foldlM_addProp dflt ns h).1 hd
      simp only [List.filterMap_cons, RegOp.component?] at hc
      have hnot : ¬ (r2.regs.any fun x => x.1 = t) := by
        rw [e4]
        rw [List.nodup_append] at hc
        simp only [List.any_eq_true, decide_eq_true_eq, not_exists, not_and]
        intro x hx hxt
        exact hc.2.2 x.1 (List.mem_map_of_mem hx) t (by simp) hxt
      simp only [RegOp.run, Reg.register, Reg.addProps, e1, Option.map_some, Option.bind_some, Reg.addRegistration,
        if_neg hnot, Option.bind_eq_bind]
      apply ih
      · exact ⟨e2.nodup, e2.names, e2.unset⟩
      · simp only [List.map_append, e4, List.map_cons, List.map_nil]
        rw [List.append_cons] at hc
        exact hc.of_append_left
      · exact hu'
      · simpa [e3] using hp
      · simp only [List.map_append, e4, List.map_cons, List.map_nil]
        rw [List.append_cons] at hc
        exact hc
    · simp only [List.flatMap_cons, RegOp.props, ← List.append_assoc] at hp
      have hd := hp.of_append_left
      obtain ⟨r2, e1, e2, e3, e4⟩ := (foldlM_addProp dflt ns h).1 hd
      simp only [RegOp.run, Reg.addProps, e1, Option.map_some, Option.bind_eq_bind, Option.bind_some]
      simp only [List.filterMap_cons, RegOp.component?] at hc
      exact ih r2 e2 (e4 ▸ hn) hu' (by rw [e3]; exact hp) (by rw [e4]; exact hc)
    · exact absurd rfl (hu _ (by simp) p v)

theorem regsFrom_fst (ops : List (RegOp N T V)) (k : Nat) :
    (regsFrom k ops).map Prod.fst = ops.filterMap RegOp.component? := by
  induction ops generalizing k with
  | nil => rfl
  | cons op ops ih => rcases op with ⟨t, ns⟩ | ⟨ns⟩ | ⟨p, v⟩ <;> simp [regsFrom, ih, RegOp.component?, List.filterMap_cons]

/-! ### Initial values -/

theorem initialOf_range {W : Type} (props : List N) (f : N → W) (len start : Nat) (m : List (Option W))
    (hm : m.length = props.length) (hs : start + len ≤ props.length) :
    ∃ m', (List.range' start len).foldlM (fun m i =>
        props[i]?.bind fun n => if i < m.length then some (m.set i (some (f n))) else none) m = some m' ∧
      m'.length = props.length ∧
      ∀ i : Nat, m'[i]? = if start ≤ i ∧ i < start + len then props[i]?.map (fun n => some (f n)) else m[i]? := by
  induction len generalizing start m with
  | zero =>
    refine ⟨m, rfl, hm, fun i => ?_⟩
    rw [if_neg (by omega)]
  | succ len ih =>
    have hlt : start < props.length := by omega
    obtain ⟨m', h1, h2, h3⟩ := ih (start + 1) (m.set start (some (f props[start]))) (by simp [hm]) (by omega)
    refine ⟨m', ?_, h2, fun i => ?_⟩
    · rw [List.range'_succ, List.foldlM_cons]
      simp only [List.getElem?_eq_getElem hlt, Option.bind_some, hm, hlt, ↓reduceIte, Option.bind_eq_bind]
      exact h1
    · rw [h3]
      by_cases hi : i = start
      · subst hi
        simp [hlt, hm]
      · rw [List.getElem?_set_ne (by omega)]
        by_cases hj : start + 1 ≤ i ∧ i < start + 1 + len
        · rw [if_pos hj, if_pos (by omega)]
        · rw [if_neg hj, if_neg (by omega)]

theorem initial_fold {W : Type} (r : Reg N T V) (value : T → N → W) (regs : List (T × Nat × Nat))
    (hb : ∀ x ∈ regs, x.2.1 ≤ x.2.2 ∧ x.2.2 ≤ r.props.length) (hpw : regs.Pairwise fun a b => a.2.2 ≤ b.2.1)
    (m : List (Option W)) (hm : m.length = r.props.length) :
    ∃ m', regs.foldlM (r.initialOf value) m = some m' ∧ m'.length = r.props.length ∧
      (∀ x ∈ regs, ∀ i : Nat, x.2.1 ≤ i → i < x.2.2 → m'[i]? = r.props[i]?.map fun n => some (value x.1 n)) ∧
      (∀ i : Nat, (∀ x ∈ regs, ¬ (x.2.1 ≤ i ∧ i < x.2.2)) → m'[i]? = m[i]?) := by
  induction regs generalizing m with
  | nil => exact ⟨m, rfl, hm, by simp, by simp⟩
  | cons x regs ih =>
    obtain ⟨hx1, hx2⟩ := hb x (by simp)
    obtain ⟨m1, h1, h2, h3⟩ := initialOf_range r.props (value x.1) (x.2.2 - x.2.1) x.2.1 m hm (by omega)
    rw [List.pairwise_cons] at hpw
    obtain ⟨m2, g1, g2, g3, g4⟩ := ih (fun y hy => hb y (by simp [hy])) hpw.2 m1 h2
    refine ⟨m2, ?_, g2, ?_, ?_⟩
    · rw [List.foldlM_cons]
      have : r.initialOf value m x = some m1 := h1
      simp only [this, Option.bind_eq_bind, Option.bind_some, g1]
    · intro y hy i hi1 hi2
      rcases List.mem_cons.1 hy with rfl | hy
      · rw [g4 i, h3, if_pos (by omega)]
        intro z hz hzi
        have := hpw.1 z hz
        omega
      · exact g3 y hy i hi1 hi2
    · intro i hi
      rw [g4 i fun z hz => hi z (by simp [hz]), h3, if_neg]
      have := hi x (by simp)
      omega

theorem mapM_id_some {W : Type} (m : List (Option W)) (l : List W) (h : m = l.map some) : m.mapM id = some l := by
  subst h
  induction l with
  | nil => rfl
  | cons a l ih => rw [List.map_cons, List.mapM_cons, ih]; rfl

theorem regsFrom_cover (ops : List (RegOp N T V)) (k i : Nat) (hops : ∀ op ∈ ops, ∀ ns, op ≠ .properties ns)
    (h1 : k ≤ i) (h2 : i < k + (ops.flatMap RegOp.props).length) :
    ∃ x ∈ regsFrom k ops, x.2.1 ≤ i ∧ i < x.2.2 := by
  induction ops generalizing k with
  | nil => simp at h2; omega
  | cons op ops ih =>
    have hops' := fun op ho => hops op (List.mem_cons_of_mem _ ho)
    rcases op with ⟨t, ns⟩ | ⟨ns⟩ | ⟨p, v⟩
    · simp only [List.flatMap_cons, RegOp.props, List.length_append] at h2
      by_cases hi : i < k + ns.length
      · exact ⟨_, by simp [regsFrom]; exact .inl rfl, h1, hi⟩
      · obtain ⟨x, hx, hx'⟩ := ih (k + ns.length) hops' (by omega) (by omega)
        exact ⟨x, by simp [regsFrom, hx], hx'⟩
    · exact absurd rfl (hops _ (by simp) ns)
    · simp only [List.flatMap_cons, RegOp.props, List.nil_append] at h2
      exact ih k hops' h1 h2

end Flair.Registry

namespace Flair.Props
open Flair.Registry Flair.Spec
set_option linter.unusedSectionVars false
variable {N T V C : Type} [DecidableEq N] [DecidableEq T] [DecidableEq C]

/-- **C39** (ids): after any history of registrations, each registered property has an id of its own, below
the number of properties, and looking up a canonical name or an id round-trips. -/
theorem C39_ids (dflt : V) (ops : List (RegOp N T V)) (r : Reg N T V) (h : regHistory dflt ops = some r) :
    r.props = ops.flatMap RegOp.props ∧ r.props.Nodup ∧
    (∀ n (i : Nat), r.resolve (.name n) = some i ↔ r.props[i]? = some n) ∧
    (∀ n i, r.resolve (.name n) = some i → i < r.props.length) ∧
    (∀ n, n ∈ r.props ↔ (r.resolve (.name n)).isSome) := by
  obtain ⟨ok, hp, -, -⟩ := history_facts dflt ops r h
  refine ⟨hp, ok.nodup, ok.names, ?_, fun n => (ok.isSome_iff n).symm⟩
  intro n i hi
  exact (List.getElem?_eq_some_iff.1 ((ok.names n i).1 hi)).1

/-- **C39** (ranges): the properties of a component, in the order in which it declares them, are exactly the
ids of its contiguous range, and looking the component up finds this range. -/
theorem C39_ranges (dflt : V) (before after : List (RegOp N T V)) (t : T) (ns : List N) (r : Reg N T V)
    (h : regHistory dflt (before ++ .component t ns :: after) = some r) :
    ∃ start, r.component t = some (t, start, start + ns.length) ∧
      ∀ (j : Nat) n, ns[j]? = some n → r.resolve (.name n) = some (start + j) := by
  obtain ⟨ok, hp, hr, hn⟩ := history_facts dflt _ r h
  refine ⟨(before.flatMap RegOp.props).length, ?_, ?_⟩
  · refine find_of_nodup hn (x := (t, _, _)) ?_
    rw [hr, regsFrom_append]
    simp [regsFrom]
  · intro j n hj
    refine (ok.names n _).2 ?_
    rw [hp, List.flatMap_append, List.getElem?_append_right (by omega), List.flatMap_cons]
    have := (List.getElem?_eq_some_iff.1 hj).1
    rw [List.getElem?_append_left (by simp only [RegOp.props]; omega)]
    simpa [RegOp.props] using hj

/-- **C39** (disjoint): the ranges of two components do not overlap, and each component is registered once. -/
theorem C39_disjoint (dflt : V) (ops : List (RegOp N T V)) (r : Reg N T V) (h : regHistory dflt ops = some r) :
    (r.regs.Pairwise fun a b => a.2.2 ≤ b.2.1) ∧ (r.regs.map Prod.fst).Nodup ∧
      ∀ x ∈ r.regs, x.2.1 ≤ x.2.2 ∧ x.2.2 ≤ r.props.length := by
  obtain ⟨-, hp, hr, hn⟩ := history_facts dflt _ r h
  refine ⟨hr ▸ regsFrom_pairwise ops 0, hn, ?_⟩
  intro x hx
  rw [hr] at hx
  have := regsFrom_bounds ops 0 x hx
  rw [hp]
  omega

/-- **C39** (when it succeeds): registering panics exactly when a canonical name or a component is registered
twice. -/
theorem C39_succeeds_iff (dflt : V) (ops : List (RegOp N T V)) (hu : ∀ op ∈ ops, ∀ p v, op ≠ .unset p v) :
    (regHistory dflt ops).isSome ↔ (ops.flatMap RegOp.props).Nodup ∧ (ops.filterMap RegOp.component?).Nodup := by
  constructor
  · intro h
    obtain ⟨r, hr⟩ := Option.isSome_iff_exists.1 h
    obtain ⟨ok, hp, hreg, hn⟩ := history_facts dflt _ r hr
    rw [hreg, regsFrom_fst] at hn
    exact ⟨hp ▸ ok.nodup, hn⟩
  · rintro ⟨h1, h2⟩
    exact history_isSome dflt ops Reg.empty empty_ok (by simp [Reg.empty]) hu (by simpa [Reg.empty] using h1)
      (by simpa [Reg.empty] using h2)

/-- **C39** (`unset` values): the value a property has on `unset` is the last one that was set for it, by its
name or its id, else the default. -/
theorem C39_unset (dflt : V) (ops : List (RegOp N T V)) (r : Reg N T V) (h : regHistory dflt ops = some r)
    (n : N) (i : Nat) (hn : r.resolve (.name n) = some i) :
    r.unset[i]? = some ((ops.filterMap (RegOp.setsUnset n i)).getLast?.getD dflt) := by
  obtain ⟨ok, -, -, -⟩ := history_facts dflt ops r h
  have hi : r.props[i]? = some n := (ok.names n i).1 hn
  have hil : i < r.unset.length := by rw [ok.unset]; exact (List.getElem?_eq_some_iff.1 hi).1
  have key := unset_history dflt ops r h i hil
  rw [key]
  congr 4
  funext op
  cases op with
  | component t ns => rfl
  | properties ns => rfl
  | unset p v =>
    cases p with
    | id j => rfl
    | name m =>
      simp only [RegOp.setsUnset, setsAt]
      have : r.props[i]? = some m ↔ m = n := by rw [hi]; simp [eq_comm]
      simp only [this]

/-- Two components and a stray property. -/
example : (regHistory 0 [.component 'a' [10, 11], .properties [20], .component 'b' [30], .unset (.name 11) 5] :
    Option (Reg Nat Char Nat)).map (fun r => (r.props, r.regs, r.unset)) =
      some ([10, 11, 20, 30], [('a', 0, 2), ('b', 3, 4)], [0, 5, 0, 0]) := rfl

/-- **C39** (initial values): when properties are registered through components only, the map of initial
values can be created and holds, for each property of each component, the value of that property in the
component's default. -/
theorem C39_initial {W : Type} (dflt : V) (ops : List (RegOp N T V)) (r : Reg N T V)
    (h : regHistory dflt ops = some r) (hops : ∀ op ∈ ops, ∀ ns, op ≠ .properties ns) (value : T → N → W) :
    ∃ vs, r.initialValues value = some vs ∧ vs.length = r.props.length ∧
      ∀ x ∈ r.regs, ∀ (i : Nat) n, x.2.1 ≤ i → i < x.2.2 → r.props[i]? = some n → vs[i]? = some (value x.1 n) := by
  obtain ⟨ok, hp, hr, hn⟩ := history_facts dflt _ r h
  obtain ⟨d1, d2, d3⟩ := C39_disjoint dflt ops r h
  obtain ⟨m, h1, h2, h3, -⟩ := initial_fold r value r.regs d3 d1 (List.replicate r.props.length none) (by simp)
  have hcov : ∀ i : Nat, i < r.props.length → ∃ x ∈ r.regs, x.2.1 ≤ i ∧ i < x.2.2 := by
    intro i hi
    rw [hr]
    exact regsFrom_cover ops 0 i hops (by omega) (by rw [← hp]; omega)
  have hsome : ∀ i : Nat, i < m.length → ∃ w, m[i]? = some (some w) := by
    intro i hi
    obtain ⟨x, hx, hx1, hx2⟩ := hcov i (by omega)
    rw [h3 x hx i hx1 hx2, List.getElem?_eq_getElem (by omega)]
    exact ⟨_, rfl⟩
  have hml : ∃ vs : List W, m = vs.map some := by
    clear h1 h3 h2
    induction m with
    | nil => exact ⟨[], rfl⟩
    | cons a m ih =>
      obtain ⟨w, hw⟩ := hsome 0 (by simp)
      simp only [List.getElem?_cons_zero, Option.some.injEq] at hw
      obtain ⟨vs, hvs⟩ := ih fun i hi => by
        obtain ⟨w, hw⟩ := hsome (i + 1) (by simpa using hi)
        exact ⟨w, by simpa using hw⟩
      exact ⟨w :: vs, by simp [hw, hvs]⟩
  obtain ⟨vs, rfl⟩ := hml
  refine ⟨vs, ?_, by simpa using h2, ?_⟩
  · unfold Reg.initialValues
    rw [if_pos, h1]
    · exact mapM_id_some _ vs rfl
    · simp only [List.all_eq_true, List.mem_range, List.any_eq_true, Bool.and_eq_true, decide_eq_true_eq]
      intro i hi
      obtain ⟨x, hx, hx'⟩ := hcov i hi
      exact ⟨x, hx, hx'⟩
  · intro x hx i n hx1 hx2 hi
    have := h3 x hx i hx1 hx2
    rw [hi, List.getElem?_map] at this
    simpa using this

/-- Two components with defaults. -/
example : ((regHistory 0 [.component 'a' [10, 11], .component 'b' [30]] : Option (Reg Nat Char Nat)).bind
    fun r => r.initialValues fun t n => (t, n + 1)) = some [('a', 11), ('a', 12), ('b', 31)] := by decide

/-! ## C40 -/

omit [DecidableEq N] in
theorem cssHistory_aux (ops : List (CssOp C N)) : ∀ (c c' : Css C N), ops.foldlM CssOp.run c = some c' →
    (∀ n, (c'.properties n).isSome ↔ (c.properties n).isSome ∨ ∃ p, CssOp.property n p ∈ ops) ∧
    (∀ n, (c'.shorthands n).isSome ↔ (c.shorthands n).isSome ∨ ∃ ps, CssOp.shorthand n ps ∈ ops) := by
  induction ops with
  | nil =>
    intro c c' h
    simp only [List.foldlM_nil, Option.pure_def, Option.some.injEq] at h
    subst h
    simp
  | cons op ops ih =>
    intro c c' h
    rw [List.foldlM_cons] at h
    rcases hop : CssOp.run c op with _ | c1
    · simp [hop] at h
    · simp only [hop, Option.bind_eq_bind, Option.bind_some] at h
      obtain ⟨i1, i2⟩ := ih c1 c' h
      rcases op with ⟨m, p⟩ | ⟨m, ps⟩
      · simp only [CssOp.run, Css.registerProperty] at hop
        split at hop
        · cases hop
        · cases hop
          refine ⟨fun n => ?_, fun n => by rw [i2]; simp⟩
          rw [i1]
          by_cases hn : n = m <;> simp [hn]
      · simp only [CssOp.run, Css.registerShorthand] at hop
        split at hop
        · cases hop
        · split at hop
          · cases hop
          · cases hop
            refine ⟨fun n => by rw [i1]; simp, fun n => ?_⟩
            rw [i2]
            by_cases hn : n = m <;> simp [hn]

/-- **C40**, as far as it holds: in a successful history no name is registered twice as a property, none
twice as a shorthand, and no shorthand takes the name of an earlier property.  Missing: a property that takes
the name of an earlier shorthand, see `C40_clash`. -/
theorem C40_rejected_partial (before after : List (CssOp C N)) (op : CssOp C N) (c : Css C N)
    (h : cssHistory (before ++ op :: after) = some c) :
    ∀ op' ∈ before, op'.name = op.name → op'.isShorthand = true ∧ op.isShorthand = false := by
  unfold cssHistory at h
  rw [List.foldlM_append] at h
  rcases hb : before.foldlM CssOp.run (Css.empty : Css C N) with _ | c1
  · simp [hb] at h
  · simp only [hb, Option.bind_eq_bind, Option.bind_some, List.foldlM_cons] at h
    obtain ⟨i1, i2⟩ := cssHistory_aux before Css.empty c1 hb
    rcases hop : CssOp.run c1 op with _ | c2
    · simp [hop] at h
    · intro op' hm hname
      rcases op with ⟨n, p⟩ | ⟨n, ps⟩
      · simp only [CssOp.run, Css.registerProperty] at hop
        rcases op' with ⟨m, q⟩ | ⟨m, qs⟩
        · simp only [CssOp.name] at hname
          subst hname
          rw [if_pos ((i1 m).2 (.inr ⟨q, hm⟩))] at hop
          cases hop
        · exact ⟨rfl, rfl⟩
      · simp only [CssOp.run, Css.registerShorthand] at hop
        rcases op' with ⟨m, q⟩ | ⟨m, qs⟩
        · simp only [CssOp.name] at hname
          subst hname
          rw [if_pos ((i1 m).2 (.inr ⟨q, hm⟩))] at hop
          simp at hop
        · simp only [CssOp.name] at hname
          subst hname
          rw [if_pos ((i2 m).2 (.inr ⟨qs, hm⟩))] at hop
          cases hop

/-- **C40**, when all properties are registered before all shorthands (as the plugins of the library do):
every name stands for one registration, and it resolves to what was registered. -/
theorem C40_unambiguous_partial (ps : List (C × Ref N)) (ss : List (C × List (Ref N))) (c : Css C N)
    (h : cssHistory (ps.map (fun x => .property x.1 x.2) ++ ss.map (fun x => .shorthand x.1 x.2)) = some c) :
    (ps.map Prod.fst ++ ss.map Prod.fst).Nodup := by
  have key : ∀ before op after, ps.map (fun x => CssOp.property x.1 x.2) ++
      ss.map (fun x => CssOp.shorthand x.1 x.2) = before ++ op :: after →
      ∀ op' ∈ before, op'.name ≠ op.name := by
    intro before op after he op' hm hname
    rw [he] at h
    obtain ⟨h1, h2⟩ := C40_rejected_partial before after op c h op' hm hname
    rcases op' with ⟨m, q⟩ | ⟨m, qs⟩
    · simp [CssOp.isShorthand] at h1
    rcases op with ⟨n, p⟩ | ⟨n, qs'⟩
    · -- a shorthand before a property: impossible here
      obtain ⟨x, y, rfl⟩ := List.append_of_mem hm
      have hpw : (ps.map (fun x => CssOp.property x.1 x.2) ++
          ss.map (fun x => CssOp.shorthand x.1 x.2)).Pairwise
          (fun a b : CssOp C N => a.isShorthand = true → b.isShorthand = true) := by
        rw [List.pairwise_append]
        refine ⟨?_, ?_, ?_⟩
        · rw [List.pairwise_map]
          exact List.pairwise_of_forall (fun a b => by simp [CssOp.isShorthand])
        · rw [List.pairwise_map]
          exact List.pairwise_of_forall (fun a b => by simp [CssOp.isShorthand])
        · intro a ha b hb _
          obtain ⟨z, _, rfl⟩ := List.mem_map.1 hb
          rfl
      rw [he, List.append_assoc, List.pairwise_append] at hpw
      have := (List.pairwise_cons.1 hpw.2.1).1 (.property n p) (by simp) rfl
      simp [CssOp.isShorthand] at this
    · simp [CssOp.isShorthand] at h2
  have hmap : ps.map Prod.fst ++ ss.map Prod.fst =
      (ps.map (fun x => CssOp.property x.1 x.2) ++ ss.map (fun x => CssOp.shorthand x.1 x.2)).map
        (CssOp.name (N := N)) := by
    simp [CssOp.name, Function.comp_def]
  rw [hmap]
  generalize ps.map (fun x => CssOp.property x.1 x.2) ++ ss.map (fun x => CssOp.shorthand x.1 x.2) = l at key
  clear h hmap
  induction l using List.reverseRecOn with
  | nil => simp
  | append_singleton l a ih =>
    rw [List.map_append, List.nodup_append]
    refine ⟨ih fun b o af he => key b o (af ++ [a]) (by simp [he]), by simp, ?_⟩
    intro x hx y hy
    simp only [List.map_cons, List.map_nil, List.mem_singleton] at hy
    subst hy
    obtain ⟨o, ho, rfl⟩ := List.mem_map.1 hx
    exact key l a [] rfl o ho

omit [DecidableEq N] in
theorem cssHistory_keeps (ops : List (CssOp C N)) : ∀ (c c' : Css C N), ops.foldlM CssOp.run c = some c' →
    (∀ n p, c.properties n = some p ∨ CssOp.property n p ∈ ops → c'.properties n = some p) ∧
    (∀ n ps, c.shorthands n = some ps ∨ CssOp.shorthand n ps ∈ ops → c'.shorthands n = some ps) := by
  induction ops with
  | nil =>
    intro c c' h
    simp only [List.foldlM_nil, Option.pure_def, Option.some.injEq] at h
    subst h
    simp
  | cons op ops ih =>
    intro c c' h
    rw [List.foldlM_cons] at h
    rcases hop : CssOp.run c op with _ | c1
    · simp [hop] at h
    · simp only [hop, Option.bind_eq_bind, Option.bind_some] at h
      obtain ⟨i1, i2⟩ := ih c1 c' h
      rcases op with ⟨m, q⟩ | ⟨m, qs⟩
      · simp only [CssOp.run, Css.registerProperty] at hop
        split at hop
        · cases hop
        · rename_i hnone
          cases hop
          refine ⟨fun n p hp => ?_, fun n ps hp => i2 n ps (by simpa using hp)⟩
          rcases hp with hp | hp
          · have : n ≠ m := by rintro rfl; simp [hp] at hnone
            exact i1 n p (.inl (by simp [this, hp]))
          · rcases List.mem_cons.1 hp with he | hp
            · cases he; exact i1 m q (.inl (by simp))
            · exact i1 n p (.inr hp)
      · simp only [CssOp.run, Css.registerShorthand] at hop
        split at hop
        · cases hop
        · rename_i hnone
          split at hop
          · cases hop
          · cases hop
            refine ⟨fun n p hp => i1 n p (by simpa using hp), fun n ps hp => ?_⟩
            rcases hp with hp | hp
            · have : n ≠ m := by rintro rfl; simp [hp] at hnone
              exact i2 n ps (.inl (by simp [this, hp]))
            · rcases List.mem_cons.1 hp with he | hp
              · cases he; exact i2 m qs (.inl (by simp))
              · exact i2 n ps (.inr hp)

/-- **C40** (resolution), in the same situation: the name of a property resolves to the property it was
registered for, the name of a shorthand to all its properties, and any other name to nothing. -/
theorem C40_resolves_partial (ps : List (C × Ref N)) (ss : List (C × List (Ref N))) (c : Css C N) (r : Reg N T V)
    (h : cssHistory (ps.map (fun x => .property x.1 x.2) ++ ss.map (fun x => .shorthand x.1 x.2)) = some c) :
    (∀ x ∈ ps, c.resolve r x.1 = (r.resolve x.2).map .property) ∧
    (∀ x ∈ ss, c.resolve r x.1 = (x.2.mapM r.resolve).map .shorthand) ∧
    (∀ n, n ∉ ps.map Prod.fst → n ∉ ss.map Prod.fst → c.resolve r n = none) := by
  have hnd := C40_unambiguous_partial ps ss c h
  obtain ⟨k1, k2⟩ := cssHistory_keeps _ _ _ h
  obtain ⟨m1, m2⟩ := cssHistory_aux _ _ _ h
  rw [List.nodup_append] at hnd
  have nosh : ∀ n, n ∉ ss.map Prod.fst → c.shorthands n = none := by
    intro n hn
    rw [← Option.not_isSome_iff_eq_none, m2]
    rintro (hx | ⟨q, hq⟩)
    · simp [Css.empty] at hx
    · simp only [List.mem_append, List.mem_map, reduceCtorEq, and_false, exists_false, false_or,
        CssOp.shorthand.injEq] at hq
      obtain ⟨y, hy, rfl, -⟩ := hq
      exact hn (List.mem_map_of_mem hy)
  have nopr : ∀ n, n ∉ ps.map Prod.fst → c.properties n = none := by
    intro n hn
    rw [← Option.not_isSome_iff_eq_none, m1]
    rintro (hx | ⟨q, hq⟩)
    · simp [Css.empty] at hx
    · simp only [List.mem_append, List.mem_map, reduceCtorEq, and_false, exists_false, or_false,
        CssOp.property.injEq] at hq
      obtain ⟨y, hy, rfl, -⟩ := hq
      exact hn (List.mem_map_of_mem hy)
  refine ⟨fun x hx => ?_, fun x hx => ?_, fun n h1 h2 => ?_⟩
  · have hp : c.properties x.1 = some x.2 := k1 _ _ (.inr (by
      rw [List.mem_append]; exact .inl (List.mem_map.2 ⟨x, hx, rfl⟩)))
    have hs : c.shorthands x.1 = none :=
      nosh _ fun hm => hnd.2.2 x.1 (List.mem_map_of_mem hx) x.1 hm rfl
    simp [Css.resolve, Css.resolveShorthand, hs, Css.resolveProperty, hp]
  · have hs : c.shorthands x.1 = some x.2 := k2 _ _ (.inr (by
      rw [List.mem_append]; exact .inr (List.mem_map.2 ⟨x, hx, rfl⟩)))
    have hp : c.properties x.1 = none :=
      nopr _ fun hm => hnd.2.2 x.1 hm x.1 (List.mem_map_of_mem hx) rfl
    rcases hm : x.2.mapM r.resolve with _ | is <;>
      simp [Css.resolve, Css.resolveShorthand, hs, Css.resolveProperty, hp, hm]
  · simp [Css.resolve, Css.resolveShorthand, nosh n h2, Css.resolveProperty, nopr n h1]

/-- The full C40 does not hold: a property may take the name of an existing shorthand without a panic, and
then the name resolves to the shorthand only. -/
theorem C40_clash : ∃ (ops : List (CssOp Nat Nat)) (c : Css Nat Nat) (r : Reg Nat Nat Nat), cssHistory ops = some c ∧
    (c.properties 7).isSome ∧ (c.shorthands 7).isSome ∧ c.resolve r 7 = some (.shorthand [1]) ∧
    c.resolveProperty r 7 = some 0 :=
  ⟨[.shorthand 7 [.id 1], .property 7 (.id 0)], _, Reg.empty, rfl, rfl, rfl, rfl, rfl⟩

/-- Both kinds can be registered, and a second use of a name is a panic. -/
example : (cssHistory [.property 1 (.id 0), .property 2 (.id 1), .shorthand 3 [.id 0, .id 1]] :
    Option (Css Nat Nat)).isSome ∧
    (cssHistory [.property 1 (.id 0), .shorthand 1 [.id 0, .id 1]] : Option (Css Nat Nat)).isNone := ⟨rfl, rfl⟩

end Flair.Props
