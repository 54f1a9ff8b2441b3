import Verif.Proofs.Reflect
import Verif.Model.Components
import Mathlib.Data.List.Pairwise
/-!
# C86: a style reaches exactly the field of its property
-/
namespace Flair.Props
open Flair.Reflect Flair.Spec Flair.Proofs.Reflect
variable {V : Type} {D : RTypes}

/-- The properties of a component are different places of it: none is inside another one, so no two of them share
a field. -/
theorem C86_properties_apart {l : Layout} {t : Nat} (h : DescribesComponent D l t) {i j : Nat} {p q : Path} {u w : Nat}
    (hi : l.properties[i]? = some (p, u)) (hj : l.properties[j]? = some (q, w)) (hij : i ≠ j) : Apart p q := by
  have hp := List.pairwise_iff_getElem.1 (properties_apart h)
  obtain ⟨hi, ei⟩ := List.getElem?_eq_some_iff.1 hi
  obtain ⟨hj, ej⟩ := List.getElem?_eq_some_iff.1 hj
  rcases Nat.lt_or_gt_of_ne hij with hlt | hlt
  · have := hp i j hi hj hlt
    rw [ei, ej] at this
    exact this
  · have := hp j i hj hi hlt
    rw [ei, ej] at this
    exact apart_symm this

/-- Reading a property of a component never panics, whatever the component holds, and gives a value of the type of
the property. -/
theorem C86_read (hD : GoodTypes D) {l : Layout} {t : Nat} (h : DescribesComponent D l t) (c : RVal V)
    (hc : OfType D t c) {p : Path} {u : Nat} (hp : (p, u) ∈ l.properties) :
    ∃ v, getValue p c = some v ∧ OfType D u v :=
  leads_element hD (properties_leads h _ hp) c hc

/-- What the loop does, for any list of properties. -/
private theorem loop_ok (keep : Bool) (hD : GoodTypes D) {t : Nat} :
    ∀ (ps : List (Nat × Path)) (l : Loop V), (ps.map (·.1)).Nodup → ps.Pairwise (fun x y => Apart x.2 y.2) →
      (∀ x ∈ ps, ∃ u, Leads D t x.2 u ∧ ∀ v, l.values x.1 = some v → OfType D u v) → OfType D t l.comp →
      ∃ l', ps.foldlM (Loop.step keep) l = .ok l' ∧ OfType D t l'.comp ∧
        l'.any = (l.any || ps.any fun x => (l.values x.1).isSome) ∧
        (∀ j, l'.values j = if j ∈ ps.map (·.1) then none else l.values j) ∧
        (∀ q, (∀ x ∈ ps, (l.values x.1).isSome → Apart x.2 q) → element q l'.comp = element q l.comp) ∧
        ∀ x ∈ ps, ∀ v, l.values x.1 = some v → ∀ b, element x.2 l.comp = some b →
          element x.2 l'.comp = tryApply keep v b
  | [], l, _, _, _, hc => ⟨l, rfl, hc, by simp, by simp, by simp, by simp⟩
  | (i, p) :: ps, l, hn, ha, hl, hc => by
    simp only [List.map_cons, List.nodup_cons, List.mem_map, not_exists, not_and] at hn
    obtain ⟨ha1, ha2⟩ := List.pairwise_cons.1 ha
    have hne : ∀ x ∈ ps, x.1 ≠ i := fun x hx => hn.1 x hx
    obtain ⟨u, hu, huv⟩ := hl (i, p) (by simp)
    obtain ⟨b, hb, hbt⟩ := leads_element hD hu l.comp hc
    -- the state after this property
    obtain ⟨m, hm, hmc, hmv, hma, hmr⟩ : ∃ m, Loop.step keep l (i, p) = .ok m ∧ OfType D t m.comp ∧
        (∀ j, m.values j = if j = i then none else l.values j) ∧ m.any = (l.any || (l.values i).isSome) ∧
        ((l.values i = none ∧ m.comp = l.comp) ∨
          ∃ v r, l.values i = some v ∧ tryApply keep v b = some r ∧ m.comp = putAt p r l.comp) := by
      cases hv : l.values i with
      | none =>
        exact ⟨⟨l.comp, fun j => if j = i then none else l.values j, l.any⟩, by simp [Loop.step, hv], hc,
          fun j => rfl, by simp, .inl ⟨rfl, rfl⟩⟩
      | some v =>
        obtain ⟨r, h1, h2, _⟩ := apply_typed keep hD (huv v hv) b hbt
        exact ⟨⟨putAt p r l.comp, fun j => if j = i then none else l.values j, true⟩,
          by simp [Loop.step, hv, applyValue_eq keep v p l.comp b r hb h1, Except.map],
          leads_putAt hD hu h2 l.comp hc, fun j => rfl, by simp, .inr ⟨v, r, rfl, h1, rfl⟩⟩
    have hmv' : ∀ x ∈ ps, m.values x.1 = l.values x.1 := fun x hx => by rw [hmv, if_neg (hne x hx)]
    have hread : ∀ q, ((l.values i).isSome → Apart p q) → element q m.comp = element q l.comp := by
      intro q hq
      rcases hmr with ⟨_, h⟩ | ⟨v, r, hv, _, h⟩
      · rw [h]
      · rw [h]
        exact element_putAt_apart p q r l.comp (hq (by simp [hv]))
    obtain ⟨l', h1, h2, h3, h4, h5, h6⟩ := loop_ok keep hD ps m hn.2 ha2
      (fun x hx => by
        obtain ⟨w, k1, k2⟩ := hl x (List.mem_cons_of_mem _ hx)
        exact ⟨w, k1, fun v hv => k2 v (by rw [← hmv' x hx]; exact hv)⟩) hmc
    refine ⟨l', ?_, h2, ?_, ?_, ?_, ?_⟩
    · rw [List.foldlM_cons, hm]
      exact h1
    · rw [h3, hma, List.any_cons, Bool.or_assoc]
      have : (ps.any fun x => (m.values x.1).isSome) = ps.any fun x => (l.values x.1).isSome := by
        rw [Bool.eq_iff_iff, List.any_eq_true, List.any_eq_true]
        exact exists_congr fun x => and_congr_right fun hx => by rw [hmv' x hx]
      rw [this]
    · intro j
      rw [h4, hmv]
      by_cases hj : j = i
      · simp [hj]
      · rw [if_neg hj]
        simp only [List.map_cons, List.mem_cons, hj, false_or]
    · intro q hq
      rw [h5 q fun x hx hs => hq x (List.mem_cons_of_mem _ hx) (by rw [← hmv' x hx]; exact hs)]
      exact hread q fun hs => hq (i, p) (by simp) hs
    · intro x hx v hv b' hb'
      rcases List.mem_cons.1 hx with rfl | hx
      · have e : b' = b := by
          have := hb'.symm.trans hb
          simpa using this
        subst e
        rcases hmr with ⟨h, _⟩ | ⟨v', r, hv', hr, h⟩
        · rw [h] at hv; cases hv
        · have e : v' = v := by rw [hv'] at hv; simpa using hv
          subst e
          rw [hr, h5 p fun y hy _ => apart_symm (ha1 y hy), h]
          exact element_putAt_same p r l.comp b' hb
      · refine h6 x hx v (by rw [hmv' x hx]; exact hv) b' ?_
        rw [hread x.2 fun _ => ha1 x hx]
        exact hb'

private theorem mem_numbered {l : Layout} {start : Nat} {x : Nat × Path} :
    x ∈ l.numbered start ↔ ∃ i u, l.properties[i]? = some (x.2, u) ∧ x.1 = start + i := by
  simp only [Layout.numbered, List.mem_map, Prod.exists, List.mk_mem_zipIdx_iff_le_and_getElem?_sub]
  constructor
  · rintro ⟨p, k, ⟨hk, hp⟩, rfl⟩
    rw [List.getElem?_map, Option.map_eq_some_iff] at hp
    obtain ⟨y, hy, rfl⟩ := hp
    exact ⟨k - start, y.2, hy, by simp; omega⟩
  · rintro ⟨i, u, hp, hx⟩
    refine ⟨x.2, x.1, ⟨by omega, ?_⟩, rfl⟩
    rw [List.getElem?_map, show x.1 - start = i by omega, hp]
    rfl

private theorem numbered_ids (l : Layout) (start : Nat) :
    (l.numbered start).map (·.1) = List.range' start l.properties.length := by
  simp only [Layout.numbered, List.map_map]
  have : ((fun x : Nat × Path => x.1) ∘ fun x : Path × Nat => (x.2, x.1)) = Prod.snd := rfl
  rw [this]
  simp

private theorem numbered_apart {l : Layout} {t : Nat} (h : DescribesComponent D l t) (start : Nat) :
    (l.numbered start).Pairwise fun x y => Apart x.2 y.2 := by
  have hp := properties_apart h
  have : (l.properties.map (·.1)).Pairwise Apart := List.pairwise_map.2 hp
  simp only [Layout.numbered]
  refine List.pairwise_map.2 ?_
  have h2 : ((l.properties.map (·.1)).zipIdx start).map (·.1) = l.properties.map (·.1) := by simp
  rw [← h2] at this
  exact List.pairwise_map.1 this

private theorem loop_component (keep : Bool) (hD : GoodTypes D) {l : Layout} {t : Nat} (h : DescribesComponent D l t)
    (c : RVal V) (hc : OfType D t c) (start : Nat) (values : Nat → Option (RVal V))
    (hv : ValuesTyped D l start values) (ps : List (Nat × Path)) (hps : ps.Perm (l.numbered start)) :
    ∃ l', ps.foldlM (Loop.step keep) ⟨c, values, false⟩ = .ok l' ∧ OfType D t l'.comp ∧
        l'.any = (ps.any fun x => (values x.1).isSome) ∧
        (∀ j, l'.values j = if j ∈ ps.map (·.1) then none else values j) ∧
        (∀ q, (∀ x ∈ ps, (values x.1).isSome → Apart x.2 q) → element q l'.comp = element q c) ∧
        ∀ x ∈ ps, ∀ v, values x.1 = some v → ∀ b, element x.2 c = some b →
          element x.2 l'.comp = tryApply keep v b := by
  have h0 := loop_ok keep hD (t := t) ps ⟨c, values, false⟩ ?_ ?_ ?_ hc
  · simpa using h0
  · rw [(hps.map (·.1)).nodup_iff, numbered_ids]
    exact List.nodup_range'
  · exact (List.Perm.pairwise_iff (fun h => apart_symm h) hps).2 (numbered_apart h start)
  · intro x hx
    obtain ⟨i, u, hi, hx1⟩ := mem_numbered.1 (hps.mem_iff.1 hx)
    refine ⟨u, properties_leads h _ (List.mem_of_getElem? hi), fun v hxv => hv i x.2 u v hi ?_⟩
    rw [← hx1]
    exact hxv

/-- **A style reaches exactly the field of its property.**  Values of the right types are applied to a component
without a panic or an error.  Afterwards a property that was given a value holds that value, provided no list in it
is shorter than the list that was there (or lists are cut); a property that was given none holds what it held; and
so does every other place of the component that is not part of a property that was given a value. -/
theorem C86_apply_partial (keep : Bool) (hD : GoodTypes D) {l : Layout} {t : Nat} (h : DescribesComponent D l t)
    (c : RVal V) (hc : OfType D t c) (start : Nat) (values : Nat → Option (RVal V))
    (hv : ValuesTyped D l start values) :
    ∃ c' left any, internalApply keep (l.numbered start) c values = .ok ⟨c', left, any⟩ ∧ OfType D t c' ∧
      (∀ i p u v b, l.properties[i]? = some (p, u) → values (start + i) = some v → getValue p c = some b →
        (getValue p c' = some v ↔ keep = false ∨ NoShorter v b)) ∧
      (∀ i p u, l.properties[i]? = some (p, u) → values (start + i) = none → getValue p c' = getValue p c) ∧
      (∀ q, (∀ i p u, l.properties[i]? = some (p, u) → values (start + i) ≠ none → Apart p q) →
        getValue q c' = getValue q c) ∧
      (any = true ↔ ∃ i < l.properties.length, values (start + i) ≠ none) ∧
      (∀ j, left j = if start ≤ j ∧ j < start + l.properties.length then none else values j) := by
  obtain ⟨⟨c', left, any⟩, h1, h2, h3, h4, h5, h6⟩ := loop_component keep hD h c hc start values hv _ (.refl _)
  refine ⟨c', left, any, h1, h2, ?_, ?_, ?_, ?_, ?_⟩
  · intro i p u v b hi hiv hb
    have hm : (start + i, p) ∈ l.numbered start := mem_numbered.2 ⟨i, u, hi, rfl⟩
    have := h6 _ hm v hiv b hb
    show element p c' = some v ↔ _
    rw [this]
    obtain ⟨b', hb', hbt⟩ := C86_read hD h c hc (List.mem_of_getElem? hi)
    rw [hb] at hb'
    cases hb'
    obtain ⟨r, k1, _, k3⟩ := apply_typed keep hD (hv i p u v hi hiv) b hbt
    rw [k1, ← k3]
    simp
  · intro i p u hi hiv
    refine h5 p fun x hx hs => ?_
    obtain ⟨j, w, hj, hxj⟩ := mem_numbered.1 hx
    have : i ≠ j := by
      rintro rfl
      rw [hxj, hiv] at hs
      cases hs
    exact C86_properties_apart h hj hi this.symm
  · intro q hq
    refine h5 q fun x hx hs => ?_
    obtain ⟨j, w, hj, hxj⟩ := mem_numbered.1 hx
    rw [hxj] at hs
    exact hq j x.2 w hj (fun k => by rw [k] at hs; cases hs)
  · change any = _ at h3
    rw [h3, List.any_eq_true]
    constructor
    · rintro ⟨x, hx, hs⟩
      obtain ⟨i, u, hi, hxi⟩ := mem_numbered.1 hx
      refine ⟨i, (List.getElem?_eq_some_iff.1 hi).1, fun k => ?_⟩
      rw [hxi, k] at hs
      cases hs
    · rintro ⟨i, hi, hs⟩
      refine ⟨(start + i, l.properties[i].1), mem_numbered.2 ⟨i, l.properties[i].2, by simp [hi], rfl⟩, ?_⟩
      exact Option.isSome_iff_ne_none.2 hs
  · intro j
    have := h4 j
    simp only [numbered_ids, List.mem_range'_1] at this
    exact this

/-- The order in which the properties are applied does not matter. -/
theorem C86_order (keep : Bool) (hD : GoodTypes D) {l : Layout} {t : Nat} (h : DescribesComponent D l t)
    (c : RVal V) (hc : OfType D t c) (start : Nat) (values : Nat → Option (RVal V))
    (hv : ValuesTyped D l start values) (ps : List (Nat × Path)) (hps : ps.Perm (l.numbered start)) :
    internalApply keep ps c values = internalApply keep (l.numbered start) c values := by
  -- the component is a fold of writes that commute
  let new : RVal V → Nat × Path → RVal V := fun c x =>
    match values x.1, element x.2 c with
    | some v, some b => (tryApply keep v b).elim c fun r => putAt x.2 r c
    | _, _ => c
  have key : ∀ (qs : List (Nat × Path)) (m m' : Loop V), (qs.map (·.1)).Nodup →
      (∀ x ∈ qs, m.values x.1 = values x.1) → qs.foldlM (Loop.step keep) m = .ok m' →
      m'.comp = qs.foldl new m.comp := by
    intro qs
    induction qs with
    | nil => intro m m' _ _ hm; cases hm; rfl
    | cons x qs ih =>
      intro m m' hn hmv hm
      simp only [List.map_cons, List.nodup_cons, List.mem_map, not_exists, not_and] at hn
      rw [List.foldlM_cons] at hm
      cases hs : Loop.step keep m x with
      | error e => rw [hs] at hm; cases hm
      | ok k =>
        rw [hs] at hm
        have hk : k.comp = new m.comp x ∧ ∀ j, k.values j = if j = x.1 then none else m.values j := by
          simp only [Loop.step] at hs
          have hx := hmv x (by simp)
          cases hvx : m.values x.1 with
          | none =>
            rw [hvx] at hs hx
            cases hs
            simp [new, ← hx]
          | some v =>
            rw [hvx] at hs hx
            simp only [Except.map] at hs
            cases ha : applyValue keep x.2 v m.comp with
            | error e => rw [ha] at hs; cases hs
            | ok c1 =>
              rw [ha] at hs
              cases hs
              refine ⟨?_, fun j => rfl⟩
              have : ∃ b r, element x.2 m.comp = some b ∧ tryApply keep v b = some r := by
                clear hm ih hmv hn hx hvx
                generalize m.comp = a at ha
                generalize x.2 = p at ha
                induction p generalizing a c1 with
                | nil =>
                  simp only [applyValue] at ha
                  cases hr : tryApply keep v a with
                  | none => rw [hr] at ha; cases ha
                  | some r => exact ⟨a, r, rfl, hr⟩
                | cons n p ih =>
                  simp only [applyValue] at ha
                  cases hf : field n (fieldsOf a) with
                  | none => rw [hf] at ha; cases ha
                  | some b =>
                    rw [hf] at ha
                    simp only [Except.map] at ha
                    cases hb : applyValue keep p v b with
                    | error e => rw [hb] at ha; cases ha
                    | ok b' =>
                      obtain ⟨d, r, h1, h2⟩ := ih b' b hb
                      exact ⟨d, r, by simp [element, hf, h1], h2⟩
              obtain ⟨b, r, hb, hr⟩ := this
              rw [applyValue_eq keep v x.2 m.comp b r hb hr] at ha
              cases ha
              simp [new, ← hx, hb, hr]
        rw [List.foldl_cons, ← hk.1]
        refine ih k m' hn.2 (fun y hy => ?_) hm
        rw [hk.2, if_neg (hn.1 y hy)]
        exact hmv y (List.mem_cons_of_mem _ hy)
  obtain ⟨m1, a1, _, a3, a4, _⟩ := loop_component keep hD h c hc start values hv ps hps
  obtain ⟨m2, b1, _, b3, b4, _⟩ := loop_component keep hD h c hc start values hv _ (.refl _)
  have hnd : ((l.numbered start).map (·.1)).Nodup := by rw [numbered_ids]; exact List.nodup_range'
  have e1 := key ps ⟨c, values, false⟩ m1 ((hps.map (·.1)).nodup_iff.2 hnd) (fun _ _ => rfl) a1
  have e2 := key (l.numbered start) ⟨c, values, false⟩ m2 hnd (fun _ _ => rfl) b1
  have hap := numbered_apart h start
  have hcomm : ∀ x ∈ ps, ∀ y ∈ ps, ∀ z, new (new z x) y = new (new z y) x := by
    intro x hx y hy z
    by_cases hxy : x = y
    · rw [hxy]
    · have hxy' : Apart x.2 y.2 := by
        have hps' := (List.Perm.pairwise_iff (fun h => apart_symm h) hps).2 hap
        have : Std.Symm (fun x y : Nat × Path => Apart x.2 y.2) := ⟨fun _ _ h => apart_symm h⟩
        exact hps'.forall hx hy hxy
      cases hvx : values x.1 with
      | none => simp [new, hvx]
      | some v =>
        cases hvy : values y.1 with
        | none => simp [new, hvy]
        | some w =>
          cases hbx : element x.2 z with
          | none =>
            cases hby : element y.2 z with
            | none => simp [new, hbx, hby]
            | some b =>
              cases hr : tryApply keep w b with
              | none => simp [new, hvy, hby, hbx, hr]
              | some r => simp [new, hvy, hby, hbx, hr, element_putAt_apart y.2 x.2 r z (apart_symm hxy')]
          | some a =>
            cases hs : tryApply keep v a with
            | none =>
              cases hby : element y.2 z with
              | none => simp [new, hvx, hbx, hby, hs]
              | some b =>
                cases hr : tryApply keep w b with
                | none => simp [new, hvx, hvy, hby, hbx, hr, hs]
                | some r =>
                  simp [new, hvx, hvy, hby, hbx, hr, hs, element_putAt_apart y.2 x.2 r z (apart_symm hxy')]
            | some s =>
              have ey := element_putAt_apart x.2 y.2 s z hxy'
              cases hby : element y.2 z with
              | none => simp [new, hvx, hvy, hbx, hby, hs, ey]
              | some b =>
                cases hr : tryApply keep w b with
                | none => simp [new, hvx, hvy, hby, hbx, hr, hs, ey]
                | some r =>
                  simp [new, hvx, hvy, hby, hbx, hr, hs, ey, element_putAt_apart y.2 x.2 r z (apart_symm hxy'),
                    putAt_comm x.2 y.2 s r z hxy']
  have e3 : m1.comp = m2.comp := by
    rw [e1, e2]
    exact hps.foldl_eq' hcomm c
  have e4 : m1.any = m2.any := by
    rw [a3, b3, Bool.eq_iff_iff, List.any_eq_true, List.any_eq_true]
    exact exists_congr fun x => by rw [hps.mem_iff]
  have e5 : m1.values = m2.values := by
    funext j
    rw [a4, b4]
    have : j ∈ ps.map (·.1) ↔ j ∈ (l.numbered start).map (·.1) := (hps.map (·.1)).mem_iff
    simp only [this]
  have : m1 = m2 := by
    cases m1; cases m2
    simp only at e3 e4 e5
    rw [e3, e4, e5]
  rw [internalApply, internalApply, a1, b1, this]

/-- The components of the model of the application of values (`Verif/Model/Components.lean`), where a component is
the map of its properties, are faithful: what the real loop does to the properties of a component is what that model
does to the map, when no list gets shorter (or lists are cut). -/
theorem C86_refines (keep : Bool) (hD : GoodTypes D) {l : Layout} {t : Nat} (h : DescribesComponent D l t)
    (c : RVal V) (hc : OfType D t c) (r : Flair.Components.Registration Nat (RVal V))
    (hr : r.stop = r.start + l.properties.length) (values : Nat → Option (RVal V))
    (hv : ValuesTyped D l r.start values)
    (hs : ∀ i p u v b, l.properties[i]? = some (p, u) → values (r.start + i) = some v → getValue p c = some b →
      keep = false ∨ NoShorter v b)
    (comp : Nat → RVal V) (hcomp : ∀ i p u, l.properties[i]? = some (p, u) → getValue p c = some (comp (r.start + i))) :
    ∃ c' left any, internalApply keep (l.numbered r.start) c values = .ok ⟨c', left, any⟩ ∧
      let m := Flair.Components.internalApply (fun _ _ => true) r comp values
      m.failed = false ∧ m.any = any ∧ m.values = left ∧
      ∀ i p u, l.properties[i]? = some (p, u) → getValue p c' = some (m.comp (r.start + i)) := by
  obtain ⟨c', left, any, h1, _, h3, h4, _, h6, h7⟩ := C86_apply_partial keep hD h c hc r.start values hv
  have key : ∀ (is : List Nat) (m : Flair.Components.Loop (RVal V)), m.failed = false →
      let m' := is.foldl (Flair.Components.Loop.step fun _ _ => true) m
      m'.failed = false ∧ (m'.any = (m.any || is.any fun i => (m.values i).isSome)) ∧
        (∀ j, m'.values j = if j ∈ is then none else m.values j) ∧
        ∀ j, m'.comp j = if j ∈ is then (m.values j).getD (m.comp j) else m.comp j := by
    intro is
    induction is with
    | nil => intro m hm; simp [hm]
    | cons i is ih =>
      intro m hm
      simp only [List.foldl_cons]
      have hst : ∃ m1, Flair.Components.Loop.step (fun _ _ => true) m i = m1 ∧ m1.failed = false ∧
          (m1.any = (m.any || (m.values i).isSome)) ∧ (∀ j, m1.values j = if j = i then none else m.values j) ∧
          ∀ j, m1.comp j = if j = i then (m.values j).getD (m.comp j) else m.comp j := by
        refine ⟨_, rfl, ?_⟩
        simp only [Flair.Components.Loop.step, hm]
        cases hv : m.values i with
        | none =>
          refine ⟨by simp, by simp, by simp, fun j => ?_⟩
          by_cases hj : j = i
          · simp [hj, hv]
          · simp [hj]
        | some v =>
          refine ⟨by simp, by simp, by simp, fun j => ?_⟩
          by_cases hj : j = i
          · simp [hj, hv]
          · simp [hj]
      obtain ⟨m1, e1, e2, e3, e4, e5⟩ := hst
      rw [e1]
      obtain ⟨k1, k2, k3, k4⟩ := ih m1 e2
      refine ⟨k1, ?_, fun j => ?_, fun j => ?_⟩
      · rw [k2, e3, List.any_cons, Bool.or_assoc]
        by_cases hi : (m.values i).isSome
        · simp [hi]
        · have : ∀ j, m1.values j = m.values j := fun j => by
            rw [e4]
            by_cases hj : j = i
            · subst hj
              simpa using (Option.not_isSome_iff_eq_none.1 hi).symm
            · simp [hj]
          simp [this]
      · rw [k3, e4]
        by_cases hj : j = i
        · simp [hj]
        · simp [hj]
      · rw [k4, e4, e5]
        by_cases hj : j = i
        · simp [hj]
        · simp [hj]
  have hm := key (List.range' r.start (r.stop - r.start)) ⟨comp, values, false, false⟩ rfl
  refine ⟨c', left, any, h1, ?_⟩
  obtain ⟨k1, k2, k3, k4⟩ := hm
  rw [hr, Nat.add_sub_cancel_left] at k1 k2 k3 k4
  simp only [Flair.Components.internalApply, Flair.Components.Registration.ids, hr, Nat.add_sub_cancel_left]
  refine ⟨k1, ?_, ?_, ?_⟩
  · rw [k2, Bool.false_or, Bool.eq_iff_iff, h6, List.any_eq_true]
    constructor
    · rintro ⟨x, hx, hs⟩
      obtain ⟨a, b⟩ := List.mem_range'_1.1 hx
      refine ⟨x - r.start, by omega, ?_⟩
      rw [show r.start + (x - r.start) = x by omega]
      exact Option.isSome_iff_ne_none.1 hs
    · rintro ⟨i, hi, hs⟩
      exact ⟨r.start + i, List.mem_range'_1.2 ⟨by omega, by omega⟩, Option.isSome_iff_ne_none.2 hs⟩
  · funext j
    rw [k3, h7]
    simp only [List.mem_range'_1]
  · intro i p u hi
    have hlt : i < l.properties.length := (List.getElem?_eq_some_iff.1 hi).1
    rw [k4, if_pos (List.mem_range'_1.2 ⟨by omega, by omega⟩)]
    change getValue p c' = some ((values (r.start + i)).getD (comp (r.start + i)))
    cases hvi : values (r.start + i) with
    | none =>
      rw [h4 i p u hi hvi, hcomp i p u hi]
      rfl
    | some v =>
      have hb := hcomp i p u hi
      exact (h3 i p u v _ hi hvi hb).2 (hs i p u v _ hi hvi hb)

/-- A small component: a struct with an opaque field, a field that is a struct with two properties, and a list. -/
private def exTypes : RTypes := fun t =>
  if t = 1 then .variants [("", [("display", 0), ("margin", 2), ("rows", 3)])]
  else if t = 2 then .variants [("", [("left", 0), ("right", 0)])]
  else if t = 3 then .list 0
  else .plain

private def exLayout : Layout :=
  .struct [("display", .prop 0), ("margin", .struct [("left", .prop 0), ("right", .prop 0)]), ("rows", .prop 3)]

private def exComp : RVal Nat :=
  .node 1 "" [("display", .plain 0 1), ("margin", .node 2 "" [("left", .plain 0 2), ("right", .plain 0 3)]),
    ("rows", .list 3 [.plain 0 4, .plain 0 5])]

example : exLayout.properties = [(["display"], 0), (["margin", "left"], 0), (["margin", "right"], 0), (["rows"], 3)] := rfl

private theorem exGood : GoodTypes exTypes := by
  intro t vs h v hv
  simp only [exTypes] at h
  split at h
  · cases h
    simp only [List.mem_singleton] at hv
    subst hv
    decide
  · split at h
    · cases h
      simp only [List.mem_singleton] at hv
      subst hv
      decide
    · split at h <;> cases h

private theorem exDescribes : DescribesComponent exTypes exLayout 1 :=
  .inl (.struct (c := "") (ds := [("display", 0), ("margin", 2), ("rows", 3)]) rfl (by decide)
    (.cons (t := 0) (by decide) .prop (.cons (t := 2) (by decide)
      (.struct (c := "") (ds := [("left", 0), ("right", 0)]) rfl (by decide)
        (.cons (t := 0) (by decide) .prop (.cons (t := 0) (by decide) .prop .nil)))
      (.cons (t := 3) (by decide) .prop .nil))))

private theorem exOfType : OfType exTypes 1 exComp :=
  .node rfl (List.mem_singleton.2 rfl) (by decide)
    (.cons (.plain rfl) (.cons (.node rfl (List.mem_singleton.2 rfl) (by decide)
      (.cons (.plain rfl) (.cons (.plain rfl) .nil))) (.cons (.list rfl (.cons (.plain rfl) (.cons (.plain rfl) .nil))) .nil)))

/-- The hypotheses of the theorems hold of it. -/
example : GoodTypes exTypes ∧ DescribesComponent exTypes exLayout 1 ∧ OfType exTypes 1 exComp :=
  ⟨exGood, exDescribes, exOfType⟩

/-- `margin-right` (id 12 when the component starts at 10) is given a value. -/
example : (internalApply true (exLayout.numbered 10) exComp
      (fun i => if i = 12 then some (.plain 0 9) else none)).toOption.map (fun m => m.comp) = some (.node 1 "" [("display", .plain 0 1),
      ("margin", .node 2 "" [("left", .plain 0 2), ("right", .plain 0 9)]), ("rows", .list 3 [.plain 0 4, .plain 0 5])]) := by
  rfl

/-- If lists keep the tail that the new value does not cover, the property does not always hold the value that it
was given: a shorter list leaves the rest of the old one. -/
theorem C86_apply_false : ∃ (D : RTypes) (l : Layout) (t : Nat) (c : RVal Nat) (values : Nat → Option (RVal Nat)),
    GoodTypes D ∧ DescribesComponent D l t ∧ OfType D t c ∧ ValuesTyped D l 0 values ∧
    ∃ c' left any p v, internalApply true (l.numbered 0) c values = .ok ⟨c', left, any⟩ ∧ (p, 3) ∈ l.properties ∧
      values 3 = some v ∧ v = .list 3 [.plain 0 7] ∧ getValue p c' = some (.list 3 [.plain 0 7, .plain 0 5]) := by
  refine ⟨exTypes, exLayout, 1, exComp, fun i => if i = 3 then some (.list 3 [.plain 0 7]) else none, exGood, exDescribes,
    exOfType, ?_, _, _, _, ["rows"], _, rfl, by simp [exLayout, Layout.properties, Layout.extract, extractFields], rfl, rfl, rfl⟩
  intro i p t v hi hv
  simp only [Nat.zero_add] at hv
  split at hv
  · rename_i h3
    subst h3
    cases hv
    have : (p, t) = (["rows"], 3) := by
      have e : exLayout.properties[3]? = some (["rows"], 3) := rfl
      rw [e] at hi
      exact (Option.some.inj hi).symm
    cases this
    exact .list rfl (.cons (.plain rfl) .nil)
  · cases hv

/-- A struct with a `#[nested]` field whose type is declared with `@self` registers the path of the whole component
for that field: reading the property gives the component, and a value for it is an error. -/
theorem C86_nested_self_false : ∃ (l : Layout) (c b v : RVal Nat), l = .struct [("inner", .self 0)] ∧
    element ["inner"] c = some b ∧ l.properties = [([], 0)] ∧ getValue [] c = some c ∧
    applyValue true [] v c = .error .error ∧ applyValue true ["inner"] v c = .ok (withField "inner" v c) :=
  ⟨_, .node 1 "" [("inner", .plain 0 1)], .plain 0 1, .plain 0 2, rfl, rfl, rfl, rfl, rfl, rfl⟩

end Flair.Props
