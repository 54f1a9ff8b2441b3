import Verif.Spec.Sharing
import Verif.Spec.NodeProps
/-!
# C107: shared maps and marks are not seen
-/
namespace Flair.Props
open Flair.Spec Flair.Transition Flair.Animation Flair.NodeProps Flair.Sharing
variable {V : Type} {n : Nat} [DecidableEq V]
set_option linter.unusedSectionVars false

/-! ## Maps -/

private theorem writes_cases (new : Nat) (ws : List (Fin n × Option V)) :
    ∀ m : Map n V, m.writes new ws = m ∨ (m.writes new ws).addr = new := by
  induction ws with
  | nil => intro m; exact .inl rfl
  | cons w ws ih =>
    intro m
    show (m.setIfNeq new w).writes new ws = m ∨ ((m.setIfNeq new w).writes new ws).addr = new
    unfold Map.setIfNeq
    split
    · exact ih m
    · rcases ih ⟨new, fun p => if p = w.1 then w.2 else m.vals p⟩ with h | h
      · right; rw [h]
      · exact .inr h

private theorem writes_vals (new : Nat) (ws : List (Fin n × Option V)) :
    ∀ m : Map n V, (m.writes new ws).vals = ws.foldl (fun f w p => if p = w.1 then w.2 else f p) m.vals := by
  induction ws with
  | nil => intro m; rfl
  | cons w ws ih =>
    intro m
    show ((m.setIfNeq new w).writes new ws).vals = _
    rw [ih, List.foldl_cons]
    congr 1
    unfold Map.setIfNeq
    split
    · rename_i h
      funext p
      by_cases hp : p = w.1
      · subst hp; rw [if_pos rfl, h]
      · rw [if_neg hp]
    · rfl

private theorem fold_map (vals : Fin n → Option V) (l : List (Fin n)) : ∀ (f : Fin n → Option V) (q : Fin n),
    (l.map fun p => (p, vals p)).foldl (fun (f : Fin n → Option V) w p => if p = w.1 then w.2 else f p) f q =
      if q ∈ l then vals q else f q := by
  induction l with
  | nil => intro f q; simp
  | cons a l ih =>
    intro f q
    rw [List.map_cons, List.foldl_cons, ih]
    by_cases h1 : q ∈ l
    · simp [h1]
    · by_cases h2 : q = a
      · subst h2; simp [h1]
      · simp [h1, h2]

private theorem writeAll_vals (new : Nat) (m : Map n V) (vals : Fin n → Option V) : (m.writeAll new vals).vals = vals := by
  unfold Map.writeAll
  rw [writes_vals]
  funext q
  rw [fold_map, if_pos (List.mem_finRange q)]

private theorem writeAll_cases (new : Nat) (m : Map n V) (vals : Fin n → Option V) :
    m.writeAll new vals = m ∨ (m.writeAll new vals).addr = new := writes_cases ..

private theorem pending_vals (new : Nat) (c : Map n V) (k : Compute n V) : (pending new c k).vals = newValues c.vals k := by
  cases k with
  | idle => rfl
  | kept ws => exact writes_vals ..
  | fresh vals => exact writeAll_vals ..

private theorem pending_cases (new : Nat) (c : Map n V) (k : Compute n V) :
    pending new c k = c ∨ ((pending new c k).addr = 0 ∧ (pending new c k).vals = fun _ => none) ∨ (pending new c k).addr = new := by
  cases k with
  | idle => exact .inl rfl
  | kept ws => rcases writes_cases new ws c with h | h; exacts [.inl h, .inr (.inr h)]
  | fresh vals =>
    right
    rcases writeAll_cases new (emptyComputed : Map n V) vals with h | h
    · left
      show (Map.writeAll new emptyComputed vals).addr = 0 ∧ (Map.writeAll new emptyComputed vals).vals = _
      rw [h]; exact ⟨rfl, rfl⟩
    · exact .inr h

private theorem create_self (env : Env n V) (s : NP n V) : createTransitions env s s.computed = some s := by
  have hk : ∀ p, createAt env s s.computed p = some ⟨s.computed p, s.lastAnim p, s.transitions p, false⟩ := by
    intro p
    unfold createAt
    dsimp only
    split
    · rfl
    · rw [if_pos rfl]
  unfold createTransitions
  rw [dif_pos (fun p => by rw [hk]; rfl)]
  simp only [hk, Option.get_some]
  simp

private theorem before_keeps {fuel : Nat} {i : Input n V} {s m : NP n V} (h : beforeCreate fuel i s = some m) :
    m.computed = (if i.reset then empty else s : NP n V).computed ∧
    m.lastAnim = (if i.reset then empty else s : NP n V).lastAnim := by
  have key : ∀ {s' t : NP n V} {δ}, tickSystem fuel s' δ = some t → t.computed = s'.computed ∧ t.lastAnim = s'.lastAnim := by
    intro s' t δ h
    unfold tickSystem at h
    split at h
    · obtain ⟨t, ht, rfl⟩ := Option.map_eq_some_iff.mp h
      unfold tickAnimations at ht
      obtain ⟨r, _, rfl⟩ := Option.map_eq_some_iff.mp ht
      exact ⟨rfl, rfl⟩
    · cases h; exact ⟨rfl, rfl⟩
  unfold beforeCreate at h
  obtain ⟨t, ht, rfl⟩ := Option.map_eq_some_iff.mp h
  obtain ⟨h1, h2⟩ := key ht
  split <;> exact ⟨h1, h2⟩

private theorem anims_keep {fuel : Nat} {env : Env n V} {i : Happens n V} {s t : NP n V}
    (h : newAnimations fuel env i.configs i.resolve s = some t) :
    t.computed = s.computed ∧ t.lastAnim = s.lastAnim := by
  unfold newAnimations at h
  split at h
  · unfold setAnimations at h
    obtain ⟨gs, _, rfl⟩ := Option.map_eq_some_iff.mp h
    exact ⟨rfl, rfl⟩
  · cases h; exact ⟨rfl, rfl⟩

private theorem beforeApply_eq (fuel : Nat) (env : Env n V) (j : Input n V) (s : NP n V) : beforeApply fuel env j s =
    ((beforeCreate fuel j s).bind fun s => createTransitions env s j.pend).bind
      fun s => newAnimations fuel env j.configs j.resolve s := rfl

private theorem apply_same (s : NP n V) (shown : Shown n V) : applyComputed s s.computed s.lastAnim false shown = (s, shown) := by
  unfold applyComputed
  rw [if_neg (by simp)]
  refine Prod.ext rfl ?_
  funext p
  have : applyAt (s.computed p) (s.computed p) (s.lastAnim p) (s.lastAnim p) = none := by
    unfold applyAt
    cases s.lastAnim p <;> simp
  dsimp only
  rw [this]

/-! ## One frame -/

private structure Inv (done : V → Prop) (x : Node n V) : Prop where
  c : x.caddr < x.next
  l : x.laddr < x.next
  c0 : x.caddr = 0 → x.np.computed = fun _ => none
  l0 : x.laddr = 0 → x.np.lastAnim = fun _ => none
  unmarked : x.marked = false
  final : ∀ p v, x.np.computed p = some v → done v

private theorem ptr_pend {new : Nat} {c : Map n V} (hc : c.addr < new) (h0 : c.addr = 0 → c.vals = fun _ => none) (k : Compute n V)
    (vals : Fin n → Option V) (h : (pending new c k).addr = (c.writeAll (new + 1) vals).addr) : (pending new c k).vals = vals := by
  rw [← writeAll_vals (new + 1) c vals]
  rcases writeAll_cases (new + 1) c vals with h1 | h1
  · rw [h1] at h ⊢
    rcases pending_cases new c k with h2 | ⟨h2, h3⟩ | h2
    · rw [h2]
    · rw [h3, h0 (by omega)]
    · omega
  · rcases pending_cases new c k with h2 | ⟨h2, h3⟩ | h2
    · rw [h2] at h; omega
    · omega
    · omega

private theorem ptr_anim {env : Env n V} {s : NP n V} {new : Nat} {l : Map n V} (hl : l.addr < new)
    (h0 : l.addr = 0 → l.vals = fun _ => none) (vals : Fin n → Option V)
    (h : (pendingAnim env (new + 3) s).addr = (l.writeAll (new + 2) vals).addr) : animValues env s = vals := by
  rw [← writeAll_vals (new + 2) l vals]
  unfold pendingAnim at h
  dsimp only at h
  split at h
  · rename_i ha
    have hn : animValues env s = fun _ => none := by
      funext p
      have := List.all_eq_true.1 ha p (List.mem_finRange p)
      simpa using this
    rcases writeAll_cases (new + 2) l vals with h1 | h1
    · rw [h1] at h ⊢; rw [hn, h0 h.symm]
    · omega
  · rcases writeAll_cases (new + 2) l vals with h1 | h1
    · rw [h1] at h; omega
    · omega

private theorem step {done : V → Prop} (env : Env n V) (fuel : Nat) (i : Happens n V) (hr : Resolves done i.placeholder)
    {x : Node n V} (hx : Inv done x) (shown : Shown n V) {m : NP n V}
    (hm : beforeCreate fuel (i.input (fun _ => none) (fun _ => none)) x.np = some m) :
    ((Sharing.frame fuel env i x shown).map fun r => (r.1.np, r.2)) =
      NodeProps.frame fuel env (i.input (newValues m.computed i.compute) fun p => i.placeholder p (newValues m.computed i.compute p))
        x.np shown ∧
    ∀ r, Sharing.frame fuel env i x shown = some r → Inv done r.1 := by
  obtain ⟨k1, k2⟩ := before_keeps hm
  have hm' : beforeCreate fuel (i.input (newValues m.computed i.compute) fun p => i.placeholder p (newValues m.computed i.compute p))
      x.np = some m := hm
  generalize hc : (⟨if i.reset then 0 else x.caddr, m.computed⟩ : Map n V) = c
  generalize hl : (⟨if i.reset then 0 else x.laddr, m.lastAnim⟩ : Map n V) = l
  have hmfin : ∀ p, i.placeholder p (m.computed p) = m.computed p := by
    intro p
    cases hp : m.computed p with
    | none => exact hr.nothing p
    | some v =>
      refine hr.stays p v ?_
      rw [k1] at hp
      split at hp
      · cases hp
      · exact hx.final p v hp
  have hpos : 0 < x.next := by have := hx.c; omega
  have hc1 : c.addr < x.next := by
    subst hc; show (if i.reset then 0 else x.caddr) < _; split; exacts [hpos, hx.c]
  have hl1 : l.addr < x.next := by
    subst hl; show (if i.reset then 0 else x.laddr) < _; split; exacts [hpos, hx.l]
  have hc0 : c.addr = 0 → c.vals = fun _ => none := by
    subst hc
    intro h
    dsimp only at h ⊢
    rw [k1]
    by_cases hre : i.reset = true
    · rw [if_pos (show (i.input (fun _ => none) (fun _ => none)).reset = true from hre)]; rfl
    · rw [if_neg hre] at h
      rw [if_neg (show ¬ (i.input (fun _ => none) (fun _ => none)).reset = true from hre)]; exact hx.c0 h
  have hl0 : l.addr = 0 → l.vals = fun _ => none := by
    subst hl
    intro h
    dsimp only at h ⊢
    rw [k2]
    by_cases hre : i.reset = true
    · rw [if_pos (show (i.input (fun _ => none) (fun _ => none)).reset = true from hre)]; rfl
    · rw [if_neg hre] at h
      rw [if_neg (show ¬ (i.input (fun _ => none) (fun _ => none)).reset = true from hre)]; exact hx.l0 h
  have hcv : c.vals = m.computed := by rw [← hc]
  have hpv : (pending x.next c i.compute).vals = newValues m.computed i.compute := by rw [pending_vals, hcv]
  have hcreate : (if i.compute.isIdle then some m else createTransitions env m (pending x.next c i.compute).vals) =
      createTransitions env m (newValues m.computed i.compute) := by
    split
    · rename_i h
      cases hk : i.compute with
      | idle => exact (create_self env m).symm
      | _ => rw [hk] at h; cases h
    · rw [hpv]
  unfold Sharing.frame NodeProps.frame
  rw [beforeApply_eq, hm, hm']
  simp only [Option.bind_some, hc, hl, hcreate]
  have hin : (i.input (newValues m.computed i.compute) fun p => i.placeholder p (newValues m.computed i.compute p)).pend =
    newValues m.computed i.compute := rfl
  rw [hin]
  cases hs : createTransitions env m (newValues m.computed i.compute) with
  | none => exact ⟨rfl, fun r h => by simp at h⟩
  | some s =>
    simp only [Option.bind_some]
    have hcf : (i.input (newValues m.computed i.compute) fun p => i.placeholder p (newValues m.computed i.compute p)).configs =
      i.configs := rfl
    have hrs : (i.input (newValues m.computed i.compute) fun p => i.placeholder p (newValues m.computed i.compute p)).resolve =
      i.resolve := rfl
    rw [hcf, hrs]
    cases ht : newAnimations fuel env i.configs i.resolve s with
    | none => exact ⟨rfl, fun r h => by simp at h⟩
    | some t =>
      obtain ⟨a1, a2⟩ := anims_keep ht
      simp only [Option.bind_some, Option.map_some]
      have hrv : (i.input (newValues m.computed i.compute) fun p => i.placeholder p (newValues m.computed i.compute p)).resolved =
        fun p => i.placeholder p (newValues m.computed i.compute p) := rfl
      have hsk : (i.input (newValues m.computed i.compute) fun p => i.placeholder p (newValues m.computed i.compute p)).skip =
        false := rfl
      rw [hrv, hsk]
      have pA := ptr_pend hc1 hc0 i.compute s.computed
      have pB := ptr_anim (env := env) (s := t) hl1 hl0 s.lastAnim
      have hcc := writeAll_cases (x.next + 1) c s.computed
      have hll := writeAll_cases (x.next + 2) l s.lastAnim
      have hcV := writeAll_vals (x.next + 1) c s.computed
      have hlV := writeAll_vals (x.next + 2) l s.lastAnim
      have hcA : (c.writeAll (x.next + 1) s.computed).addr ≤ x.next + 1 := by
        rcases hcc with h | h
        · rw [h]; omega
        · omega
      have hlA : (l.writeAll (x.next + 2) s.lastAnim).addr ≤ x.next + 2 := by
        rcases hll with h | h
        · rw [h]; omega
        · omega
      have hcZ : (c.writeAll (x.next + 1) s.computed).addr = 0 → s.computed = fun _ => none := by
        intro h0
        rcases hcc with h | h
        · rw [← hcV, h]; rw [h] at h0; exact hc0 h0
        · omega
      have hlZ : (l.writeAll (x.next + 2) s.lastAnim).addr = 0 → s.lastAnim = fun _ => none := by
        intro h0
        rcases hll with h | h
        · rw [← hlV, h]; rw [h] at h0; exact hl0 h0
        · omega
      have hpZ : (pendingAnim env (x.next + 3) t).addr = 0 → animValues env t = fun _ => none := by
        intro h0
        unfold pendingAnim at h0
        dsimp only at h0
        split at h0
        · rename_i ha
          funext p
          simpa using List.all_eq_true.1 ha p (List.mem_finRange p)
        · omega
      have hpA : (pendingAnim env (x.next + 3) t).addr ≤ x.next + 3 := by
        unfold pendingAnim; dsimp only; split <;> omega
      have hpP : (pendingAnim env (x.next + 3) t).vals = animValues env t := rfl
      generalize hmk : (x.marked || (!i.compute.isIdle && (!(pending x.next c i.compute).ptrEq (c.writeAll (x.next + 1) s.computed) ||
        decide (n ≠ 0))) || needsApplication (pending x.next c i.compute) (pendingAnim env (x.next + 3) t)
          (c.writeAll (x.next + 1) s.computed) (l.writeAll (x.next + 2) s.lastAnim)) = mk
      unfold applyNode
      rw [hpv, hpP]
      set R : Fin n → Option V := fun p => i.placeholder p (newValues m.computed i.compute p) with hR
      have hRf : ∀ p v, R p = some v → done v := fun p v h => hr.final p _ v h
      have wV := writeAll_vals (x.next + 4) (pending x.next c i.compute) R
      have wC := writeAll_cases (x.next + 4) (pending x.next c i.compute) R
      cases mk with
      | true =>
        simp only [if_true]
        split
        · rename_i hpe
          simp only [Map.ptrEq, Bool.and_eq_true, decide_eq_true_eq] at hpe
          obtain ⟨e1, e2⟩ := hpe
          have hRs : R = s.computed := by
            rcases wC with h | h
            · rw [h] at e1 wV; rw [← wV]; exact pA e1
            · omega
          have hAl := pB e2
          have hsame : applyComputed t R (animValues env t) false shown = (t, shown) := by
            rw [hRs, hAl, ← a1, ← a2]; exact apply_same t shown
          rw [hsame]
          refine ⟨?_, ?_⟩
          · simp only [Option.map_some]
            rw [hAl, ← a2]
          · rintro r h
            cases h
            refine ⟨?_, ?_, ?_, ?_, rfl, ?_⟩
            · show (Map.writeAll (x.next + 1) c s.computed).addr < x.next + 6; omega
            · show (pendingAnim env (x.next + 3) t).addr < x.next + 6; omega
            · intro h0; show t.computed = _; rw [a1]; exact hcZ h0
            · intro h0; exact hpZ h0
            · intro p v h; exact hRf p v (by rw [hRs, ← a1]; exact h)
        · refine ⟨?_, ?_⟩
          · simp only [Option.map_some]
            rw [wV]
          · rintro r h
            cases h
            rw [wV]
            have uV := writeAll_vals (x.next + 5) (⟨(c.writeAll (x.next + 1) s.computed).addr, t.computed⟩ : Map n V) R
            have uC := writeAll_cases (x.next + 5) (⟨(c.writeAll (x.next + 1) s.computed).addr, t.computed⟩ : Map n V) R
            refine ⟨?_, ?_, ?_, ?_, rfl, ?_⟩
            · show (Map.writeAll _ _ _).addr < x.next + 6
              rcases uC with h | h
              · rw [h]; show (Map.writeAll (x.next + 1) c s.computed).addr < x.next + 6; omega
              · omega
            · show (pendingAnim env (x.next + 3) t).addr < x.next + 6; omega
            · intro h0
              show R = _
              rcases uC with h | h
              · dsimp only at h0; rw [h] at h0; rw [← uV, h]; show t.computed = _; rw [a1]; exact hcZ h0
              · dsimp only at h0; omega
            · intro h0; exact hpZ h0
            · intro p v h; exact hRf p v h
      | false =>
        simp only [Bool.or_eq_false_iff, needsApplication, Map.ptrEq, Bool.and_eq_false_iff, Bool.not_eq_false',
          decide_eq_true_eq, decide_eq_false_iff_not, not_not] at hmk
        obtain ⟨⟨_, hidle⟩, e1, e2⟩ := hmk
        have hAl : animValues env t = s.lastAnim := by
          funext p; have := e2 p; rw [hlV] at this; exact this
        have hPs := pA e1
        have hRs : R = s.computed := by
          rw [← hPs, hpv]
          rcases hidle with h | ⟨_, h⟩
          · cases hk : i.compute with
            | idle => rw [hR, hk]; funext p; exact hmfin p
            | _ => rw [hk] at h; cases h
          · subst h; funext p; exact p.elim0
        have hsame : applyComputed t R (animValues env t) false shown = (t, shown) := by
          rw [hRs, hAl, ← a1, ← a2]; exact apply_same t shown
        rw [hsame]
        rw [if_neg (by simp), if_pos ⟨fun p => by rw [← hpv, hPs, a1], fun p => by rw [hAl, a2]⟩]
        refine ⟨rfl, ?_⟩
        rintro r h
        cases h
        refine ⟨?_, ?_, ?_, ?_, rfl, ?_⟩
        · show (Map.writeAll (x.next + 1) c s.computed).addr < x.next + 6; omega
        · show (Map.writeAll (x.next + 2) l s.lastAnim).addr < x.next + 6; omega
        · intro h0; show t.computed = _; rw [a1]; exact hcZ h0
        · intro h0; show t.lastAnim = _; rw [a2]; exact hlZ h0
        · intro p v h; exact hRf p v (by rw [hRs, ← a1]; exact h)

private theorem inv_spawned (done : V → Prop) : Inv done (spawned : Node n V) :=
  ⟨Nat.one_pos, Nat.one_pos, fun _ => rfl, fun _ => rfl, rfl, fun _ _ h => by cases h⟩

private theorem both (done : V → Prop) (env : Env n V) {h : List (Nat × Happens n V)} {shown₀ shown : Shown n V} {x : Node n V}
    {evs} (hm : Marked env h shown₀ x shown evs) (hr : ∀ f ∈ h, Resolves done f.2.placeholder) :
    Plain env h shown₀ x.np shown evs ∧ Inv done x := by
  induction hm with
  | start => exact ⟨.start _, inv_spawned done⟩
  | @frame h shown₀ x shown evs x' shown' te ae fuel i hm hf ih =>
    obtain ⟨h1, h2⟩ := ih fun f hf => hr f (by simp [hf])
    have hb : ∃ m, beforeCreate fuel (i.input (fun _ => none) (fun _ => none)) x.np = some m := by
      unfold Sharing.frame at hf
      obtain ⟨m, hm, _⟩ := Option.bind_eq_some_iff.mp hf
      exact ⟨m, hm⟩
    obtain ⟨m, hm⟩ := hb
    obtain ⟨e, hi⟩ := step env fuel i (hr (fuel, i) (by simp)) h2 shown hm
    refine ⟨.frame fuel i h1 hm ?_, hi _ hf⟩
    rw [← e, hf]
    rfl

/-- C107: whatever happens to a node, what its components show and the events it sends are those of a program that shares
no maps and writes every node in every frame. -/
theorem C107_unseen_partial (done : V → Prop) (env : Env n V) {h : List (Nat × Happens n V)} {shown₀ shown : Shown n V} {x : Node n V}
    {evs} (hm : Marked env h shown₀ x shown evs) (hr : ∀ f ∈ h, Resolves done f.2.placeholder) :
    Plain env h shown₀ x.np shown evs := (both done env hm hr).1

/-- C107: conversely, no run of that program is lost (the debug assertion about nodes that are not marked never fails). -/
theorem C107_no_assertion_partial (done : V → Prop) (env : Env n V) {h : List (Nat × Happens n V)} {shown₀ shown : Shown n V} {s : NP n V}
    {evs} (hp : Plain env h shown₀ s shown evs) (hr : ∀ f ∈ h, Resolves done f.2.placeholder) :
    ∃ x, x.np = s ∧ Marked env h shown₀ x shown evs := by
  induction hp with
  | start => exact ⟨spawned, rfl, .start _⟩
  | @frame h shown₀ s shown evs s' shown' te ae m fuel i hp hb hf ih =>
    have hr' : ∀ f ∈ h, Resolves done f.2.placeholder := fun f hf => hr f (by simp [hf])
    obtain ⟨x, rfl, hm⟩ := ih hr'
    obtain ⟨e, hi⟩ := step env fuel i (hr (fuel, i) (by simp)) (both done env hm hr').2 shown hb
    rw [hf] at e
    obtain ⟨r, hr, hre⟩ := Option.map_eq_some_iff.mp e
    obtain ⟨y, sh, te', ae'⟩ := r
    cases hre
    exact ⟨y, rfl, .frame fuel i hm hr⟩

/-- C107: the histories for which C33 and C53 are proved (`Frames`, where it is an assumption that a node is left out only if
nothing changed) include those of the code, with any restriction `ok` on the frames. -/
theorem C107_histories_partial (done : V → Prop) (env : Env n V) (ok : Input n V → NP n V → Prop) {h : List (Nat × Happens n V)}
    {shown₀ shown : Shown n V} {x : Node n V} {evs} (hm : Marked env h shown₀ x shown evs)
    (hr : ∀ f ∈ h, Resolves done f.2.placeholder)
    (hok : ∀ h' fuel i s shown evs m, h' ++ [(fuel, i)] <+: h → Plain env h' shown₀ s shown evs →
      beforeCreate fuel (i.input (fun _ => none) (fun _ => none)) s = some m →
      ok (i.input (newValues m.computed i.compute) fun p => i.placeholder p (newValues m.computed i.compute p)) m) :
    ∃ marks, Frames env ok x.np shown marks := by
  have hp := C107_unseen_partial done env hm hr
  generalize x.np = s at hp
  clear hm hr
  induction hp with
  | start => exact ⟨_, .start _⟩
  | @frame h shown₀ s shown evs s' shown' te ae m fuel i hp hb hf ih =>
    obtain ⟨tr, ih⟩ := ih fun h' fuel i s shown evs m hpre => hok h' fuel i s shown evs m (hpre.trans (List.prefix_append _ _))
    have : ∃ m', beforeApply fuel env (i.input (newValues m.computed i.compute)
        fun p => i.placeholder p (newValues m.computed i.compute p)) s = some m' := by
      unfold NodeProps.frame at hf
      obtain ⟨m', hm', _⟩ := Option.map_eq_some_iff.mp hf
      exact ⟨m', hm'⟩
    obtain ⟨m', hm'⟩ := this
    have hb' : beforeCreate fuel (i.input (newValues m.computed i.compute)
      fun p => i.placeholder p (newValues m.computed i.compute p)) s = some m := hb
    exact ⟨_, .frame fuel _ ih hb' (hok h fuel i s shown evs m (List.prefix_refl _) hp hb) hm' (fun h => by cases h) hf⟩

/-! ## Examples -/

/-- one property of numbers -/
private def env1 : Env 1 ℚ := ⟨fun _ a b q => a + (b - a) * q, fun _ => 0, fun _ => false⟩

/-- values are as they are (from 100 on, they are paths, and 100 less is the image) -/
private def load : Fin 1 → Option ℚ → Option ℚ := fun _ v => v.map fun q => if q < 100 then q else 99

private theorem load_resolves : Resolves (fun q : ℚ => q < 100) load where
  nothing := fun _ => rfl
  final := by
    intro p v w h
    cases v with
    | none => cases h
    | some v =>
      simp only [load, Option.map_some, Option.some.injEq] at h
      subst h
      split
      · assumption
      · norm_num
  stays := by
    intro p v h
    simp [load, h]

private def calm (c : Compute 1 ℚ) (ph : Fin 1 → Option ℚ → Option ℚ) : Happens 1 ℚ := ⟨false, 0, none, none, fun _ => none, c, ph⟩

/-- `C107_unseen_partial`, `C107_no_assertion_partial`: a frame with a new style (a placeholder), and one in which the node is not marked. -/
example : ∃ x shown evs, Marked env1 [(1, calm (.fresh fun _ => some 100) load), (1, calm .idle load)] (fun _ => none) x shown evs ∧
    shown 0 = some 99 :=
  ⟨_, _, _, .frame 1 _ (.frame 1 _ (.start _) rfl) rfl, by decide +kernel⟩

example : ∀ f ∈ [(1, calm (.fresh fun _ => some 100) load), (1, calm .idle load)], Resolves (fun q : ℚ => q < 100) f.2.placeholder := by
  intro f hf
  simp only [List.mem_cons, List.not_mem_nil, or_false] at hf
  rcases hf with rfl | rfl <;> exact load_resolves

/-- C107 does not hold for placeholders that cannot be resolved in the frame in which they are computed (the node has no loaded
sheet then): they are not looked at again, although a program that writes every node would do so. -/
theorem C107_unresolved : ∃ (env : Env 1 ℚ) (h : List (Nat × Happens 1 ℚ)) (shown₀ : Shown 1 ℚ),
    (∃ x shown evs, Marked env h shown₀ x shown evs ∧ shown 0 = some 100) ∧
    ∃ s shown evs, Plain env h shown₀ s shown evs ∧ shown 0 = some 99 := by
  refine ⟨env1, [(1, calm (.fresh fun _ => some 100) (fun _ v => v)), (1, calm .idle load)], fun _ => none, ?_, ?_⟩
  · exact ⟨_, _, _, .frame 1 _ (.frame 1 _ (.start _) rfl) rfl, by decide +kernel⟩
  · exact ⟨_, _, _, .frame 1 _ (.frame 1 _ (.start _) rfl rfl) rfl rfl, by decide +kernel⟩

end Flair.Props
