import Verif.Spec.Debug
import Verif.Props.Easing
import Verif.Props.Keyframes
import Verif.Tactics
/-!
# C104: debug assertions
-/
namespace Flair.Props
open Flair.Debug Flair.Spec

section Nodes
variable {N : Type} [DecidableEq N]

omit [DecidableEq N] in
private theorem onAll_some {w : World N} {f : N → Maps → Option Maps} (h : ∀ n m, w n = some m → f n m ≠ none) :
    onAll w f = some fun n => (w n).bind (f n) := if_pos h

omit [DecidableEq N] in
private theorem onAll_iff {w w' : World N} {f : N → Maps → Option Maps} :
    onAll w f = some w' ↔ (∀ n m, w n = some m → f n m ≠ none) ∧ w' = fun n => (w n).bind (f n) := by
  unfold onAll
  split
  · rename_i h; exact ⟨fun e => ⟨h, (Option.some.inj e).symm⟩, fun e => congrArg some e.2.symm⟩
  · rename_i h; simp [h]

omit [DecidableEq N] in
private theorem onAll_none {w : World N} {f : N → Maps → Option Maps} {n m} (h : w n = some m) (e : f n m = none) :
    onAll w f = none := if_neg fun k => k n m h e

/-- at rest, or not yet reset -/
private def Fine (m : Maps) : Prop :=
  m.added = true ∨ (m.pv = false ∧ m.pc = false ∧ m.pa = false ∧ m.comp = true ∧ m.last = true)

private theorem frames_append (w : World N) (a b : List (Frame N)) :
    frames w (a ++ b) = (frames w a).bind fun w => frames w b := by
  induction a generalizing w with
  | nil => rfl
  | cons f a ih =>
    show (frame f w).bind _ = ((frame f w).bind _).bind _
    cases frame f w with
    | none => rfl
    | some w' => exact ih w'

private def PInv (now : N → Prop) (a : List (Option N × N)) (w : World N) : Prop :=
  (∀ n, (w n).isSome ↔ now n) ∧ ∀ n m, w n = some m → m.last = true ∧ m.pa = false ∧ m.comp = true ∧ m.added = false ∧
    (n ∈ a.map (·.2) → m.pc = true ∧ m.pv = false) ∧ (n ∉ a.map (·.2) → m.pc = false)

private theorem compute_ok {now : N → Prop} {vs : List (Option N × N)} (hv : VisitsAll now vs) (b : List (Option N × N)) :
    ∀ a w, vs = a ++ b → PInv now a w → ∃ w', computeAll w b = some w' ∧ PInv now vs w' := by
  induction b with
  | nil => intro a w e h; rw [List.append_nil] at e; subst e; exact ⟨w, rfl, h⟩
  | cons v b ih =>
    intro a w e h
    obtain ⟨up, n⟩ := v
    have hn : n ∉ a.map (·.2) := by
      intro hm
      have := hv.once
      rw [e] at this
      simp only [List.map_append, List.map_cons] at this
      exact (List.nodup_append.mp this).2.2 n hm n (by simp) rfl
    have key : ∃ w', computeVisit w (up, n) = some w' ∧ PInv now (a ++ [(up, n)]) w' := by
      have one : ∀ u : Option Bool, u ≠ some false → ∃ w', onNode w n (computeNode u) = some w' ∧
          PInv now (a ++ [(up, n)]) w' := by
        intro u hu
        unfold onNode
        cases hw : w n with
        | none =>
          refine ⟨w, rfl, h.1, fun k m hk => ?_⟩
          have hkn : k ≠ n := by rintro rfl; rw [hw] at hk; cases hk
          obtain ⟨a1, a2, a3, a4, a5, a6⟩ := h.2 k m hk
          refine ⟨a1, a2, a3, a4, ?_, ?_⟩
          · intro hm; apply a5; simpa [hkn] using hm
          · intro hm; apply a6; intro hm2; apply hm; simp at hm2 ⊢; exact .inl hm2
        | some m =>
          obtain ⟨a1, a2, a3, a4, _, a6⟩ := h.2 n m hw
          have a6 := a6 hn
          have : ∃ m', computeNode u m = some m' ∧ m'.last = true ∧ m'.pa = false ∧ m'.comp = true ∧ m'.added = false ∧
              m'.pc = true ∧ m'.pv = false := by
            unfold computeNode
            simp only [a1, a2, a6, a3, hu]
            cases hpv : m.pv <;> simp [a1, a2, a3, a4, hpv]
          obtain ⟨m', e', b1, b2, b3, b4, b5, b6⟩ := this
          refine ⟨_, by simp only [e']; rfl, ?_, ?_⟩
          · intro k
            by_cases hk : k = n
            · subst hk; simp [← h.1 k, hw]
            · simpa [hk] using h.1 k
          · intro k mk hk
            by_cases hkn : k = n
            · subst hkn
              simp only [if_true] at hk
              cases hk
              exact ⟨b1, b2, b3, b4, fun _ => ⟨b5, b6⟩, fun hm => absurd (by simp) hm⟩
            · simp only [if_neg hkn] at hk
              obtain ⟨c1, c2, c3, c4, c5, c6⟩ := h.2 k mk hk
              refine ⟨c1, c2, c3, c4, ?_, ?_⟩
              · intro hm; apply c5; simpa [hkn] using hm
              · intro hm; apply c6; intro hm2; apply hm; simp at hm2 ⊢; exact .inl hm2
      cases up with
      | none => exact one none (by simp)
      | some p =>
        obtain ⟨hp1, hp2⟩ := hv.parents a b p n e
        obtain ⟨mp, hmp⟩ := Option.isSome_iff_exists.mp ((h.1 p).mpr hp2)
        have := ((h.2 p mp hmp).2.2.2.2.1 hp1).1
        obtain ⟨w', e', k⟩ := one (some mp.pc) (by simp [this])
        refine ⟨w', ?_, k⟩
        show (match w p with | none => some w | some mp => onNode w n (computeNode (some mp.pc))) = some w'
        rw [hmp]; exact e'
    obtain ⟨w', e', k⟩ := key
    obtain ⟨w'', e'', k'⟩ := ih (a ++ [(up, n)]) w' (by rw [e]; simp) k
    exact ⟨w'', by unfold computeAll; rw [e']; exact e'', k'⟩

private theorem frame_ok {alive : N → Prop} {w : World N} {fr : Frame N} (ha : ∀ n, (w n).isSome ↔ alive n)
    (hf : ∀ n m, w n = some m → Fine m) (ho : OrdinaryFrame alive fr) :
    ∃ w', frame fr w = some w' ∧ (∀ n, (w' n).isSome ↔ afterFrame alive fr n) ∧ ∀ n m, w' n = some m → Fine m := by
  unfold frame
  set w0 : World N := spawn (fun n => if fr.gone n then none else w n) fr.spawned with h0
  have f0 : ∀ n m, w0 n = some m → Fine m := by
    intro n m h
    simp only [h0, spawn] at h
    split at h
    · cases h; exact .inl rfl
    · split at h
      · cases h
      · exact hf n m h
  have s0 : ∀ n, (w0 n).isSome ↔ fr.spawned n = true ∨ alive n ∧ fr.gone n = false := by
    intro n
    simp only [h0, spawn]
    split
    · simp_all
    · split
      · simp_all
      · simp_all
  dsimp only
  rw [onAll_some (by intro n m _; simp [resetNode])]
  simp only [Option.bind_some]
  set w1 : World N := fun n => (w0 n).bind (resetNode fr n) with h1
  have f1 : ∀ n m, w1 n = some m → m.added = false ∧ m.pv = false ∧ m.pc = false ∧ m.pa = false ∧ m.comp = true ∧ m.last = true := by
    intro n m h
    simp only [h1] at h
    cases hw : w0 n with
    | none => rw [hw] at h; cases h
    | some m0 =>
      rw [hw] at h
      have hh := f0 n m0 hw
      simp only [Option.bind_some, resetNode, Option.some.injEq] at h
      subst h
      rcases hh with hh | hh
      · simp [hh, Maps.reset]
      · split
        · simp [Maps.reset]
        · simp [hh]
  have s1 : ∀ n, (w1 n).isSome ↔ (w0 n).isSome := by
    intro n; simp only [h1]; cases w0 n <;> simp [resetNode]
  set w2 := spawn w1 fr.spawnedMid with h2
  have s2 : ∀ n, (w2 n).isSome ↔ inFrame alive fr n := by
    intro n
    simp only [h2, spawn, inFrame]
    split
    · simp_all
    · rw [s1, s0]; simp_all
  have f2 : ∀ n m, w2 n = some m → (m = .fresh ∧ fr.spawnedMid n = true) ∨
      (m.added = false ∧ m.pv = false ∧ m.pc = false ∧ m.pa = false ∧ m.comp = true ∧ m.last = true) := by
    intro n m h
    simp only [h2, spawn] at h
    split at h
    · cases h; exact .inl ⟨rfl, by assumption⟩
    · exact .inr (f1 n m h)
  have ok2 : ∀ n m, w2 n = some m → setValues fr n m ≠ none := by
    intro n m h
    have : m.pv = false := by rcases f2 n m h with ⟨rfl, _⟩ | h <;> [rfl; exact h.2.1]
    unfold setValues
    split <;> simp [this]
  rw [onAll_some ok2]
  simp only [Option.bind_some]
  set w3 : World N := fun n => (w2 n).bind (setValues fr n) with h3
  have s3 : ∀ n, (w3 n).isSome ↔ inFrame alive fr n := by
    intro n
    rw [← s2]
    simp only [h3]
    cases hw : w2 n with
    | none => simp
    | some m => simpa [Option.isSome_iff_ne_none] using ok2 n m hw
  have f3 : ∀ n m, w3 n = some m → (m.pc = false ∧ m.pa = false ∧ m.pv = fr.recalc n) ∧
      ((m.added = true ∧ fr.spawnedMid n = true ∧ m.comp = false ∧ m.last = false) ∨
        (m.added = false ∧ m.comp = true ∧ m.last = true)) := by
    intro n m h
    simp only [h3] at h
    cases hw : w2 n with
    | none => rw [hw] at h; cases h
    | some m0 =>
      rw [hw] at h
      simp only [Option.bind_some, setValues] at h
      rcases f2 n m0 hw with ⟨rfl, hs⟩ | hh
      · cases hr : fr.recalc n <;> simp [hr, Maps.fresh] at h <;> subst h <;> simp [hs]
      · cases hr : fr.recalc n <;> simp [hr, hh] at h <;> subst h <;> simp [hh]
  have busy_iff : Busy fr w3 ↔ Calculates alive fr := by
    unfold Busy Calculates
    simp only [s3]
    exact ⟨fun ⟨n, a, b⟩ => ⟨n, b, a⟩, fun ⟨n, a, b⟩ => ⟨n, b, a⟩⟩
  have mid : ∃ w4, (open Classical in if Busy fr w3 then computeAll w3 fr.visits else onAll w3 keepNode) = some w4 ∧
      (∀ n, (w4 n).isSome ↔ inFrame alive fr n) ∧ ∀ n m, w4 n = some m → m.pa = false ∧ m.pv = false ∧
        ((m.added = true ∧ m.pc = false ∧ m.comp = false ∧ m.last = false) ∨
        (m.added = false ∧ m.pc = true ∧ m.comp = true ∧ m.last = true)) := by
    by_cases hb : Busy fr w3
    · obtain ⟨nm, hv⟩ := ho (busy_iff.mp hb)
      obtain ⟨w4, e, p1, p2⟩ := compute_ok hv fr.visits [] w3 rfl ⟨s3, fun n m h => by
        obtain ⟨⟨a, b, _⟩, c | c⟩ := f3 n m h
        · rw [nm] at c; cases c.2.1
        · exact ⟨c.2.2, b, c.2.1, c.1, by simp, fun _ => a⟩⟩
      refine ⟨w4, by rw [if_pos hb]; exact e, p1, fun n m h => ?_⟩
      obtain ⟨a1, a2, a3, a4, a5, _⟩ := p2 n m h
      obtain ⟨a5, a6⟩ := a5 (hv.all n ((p1 n).mp (by rw [h]; rfl)))
      exact ⟨a2, a6, .inr ⟨a4, a5, a3, a1⟩⟩
    · rw [if_neg hb, onAll_some (by intro n m h; simp [keepNode, (f3 n m h).1.1])]
      refine ⟨_, rfl, fun n => ?_, fun n m h => ?_⟩
      · rw [← s3]
        cases hw : w3 n with
        | none => simp
        | some m => simp [keepNode, (f3 n m hw).1.1]
      · cases hw : w3 n with
        | none => rw [hw] at h; cases h
        | some m0 =>
          obtain ⟨⟨a, b, c⟩, d⟩ := f3 n m0 hw
          have hr : fr.recalc n = false := by
            by_contra hr
            exact hb ⟨n, by simpa using hr, by rw [hw]; rfl⟩
          rw [hw] at h
          simp [keepNode, a] at h
          subst h
          refine ⟨b, by rw [c, hr], ?_⟩
          rcases d with d | d <;> simp [d, a]
  obtain ⟨w4, e4, s4, f4⟩ := mid
  rw [e4]
  simp only [Option.bind_some]
  set w5 := spawn w4 fr.spawnedLate with h5
  have s5 : ∀ n, (w5 n).isSome ↔ afterFrame alive fr n := by
    intro n
    simp only [h5, spawn, afterFrame, ← s4]
    split <;> simp_all
  have f5 : ∀ n m, w5 n = some m → m.pa = false ∧ (m.added = true ∧ m.pc = false ∨
        (m.added = false ∧ m.pv = false ∧ m.pc = true ∧ m.comp = true ∧ m.last = true)) := by
    intro n m h
    simp only [h5, spawn] at h
    split at h
    · cases h; exact ⟨rfl, .inl ⟨rfl, rfl⟩⟩
    · obtain ⟨a, b, c | c⟩ := f4 n m h
      · exact ⟨a, .inl ⟨c.1, c.2.1⟩⟩
      · exact ⟨a, .inr ⟨c.1, b, c.2⟩⟩
  rw [onAll_some (by intro n m h; simp [setAnimation, (f5 n m h).1])]
  simp only [Option.bind_some]
  rw [onAll_some (by intro n m h; unfold applyNode; split <;> [simp; (split <;> simp)])]
  refine ⟨_, rfl, fun n => ?_, fun n m h => ?_⟩
  · rw [← s5]
    cases hw : w5 n with
    | none => simp
    | some m =>
      simp only [Option.bind_some, setAnimation, (f5 n m hw).1, Bool.false_eq_true, if_false]
      unfold applyNode
      split <;> [simp; (split <;> simp)]
  · cases hw : w5 n with
    | none => rw [hw] at h; cases h
    | some m0 =>
      obtain ⟨a, b⟩ := f5 n m0 hw
      rw [hw] at h
      simp only [Option.bind_some, setAnimation, a, Bool.false_eq_true, if_false] at h
      rcases b with b | b
      · left
        unfold applyNode at h
        split at h
        · cases h; exact b.1
        · split at h <;> (cases h; exact b.1)
      · right
        unfold applyNode at h
        split at h
        · cases h; simp [b]
        · simp [b] at h; subst h; simp [b]

private theorem frames_ok {alive : N → Prop} {frs : List (Frame N)} (ho : Ordinary alive frs) :
    ∀ w : World N, (∀ n, (w n).isSome ↔ alive n) → (∀ n m, w n = some m → Fine m) → ∃ w', frames w frs = some w' ∧
      (∀ n, (w' n).isSome ↔ afterFrames alive frs n) ∧ ∀ n m, w' n = some m → Fine m := by
  induction ho with
  | nil alive => intro w h f; exact ⟨w, rfl, h, f⟩
  | cons h1 _ ih =>
    intro w ha hf
    obtain ⟨w1, e, a1, b1⟩ := frame_ok ha hf h1
    obtain ⟨w2, e2, k⟩ := ih w1 a1 b1
    exact ⟨w2, by unfold frames; rw [e]; exact e2, k⟩

/-- **C104** (the maps of the nodes): whatever is spawned, despawned, reset, restyled and moved, no assertion fails if in
every frame in which styles are calculated all the nodes are below a root and none was spawned after
`StyleSystems::Prepare`; and after it every node is at rest, or is going to be reset. -/
theorem C104_nodes_partial (frs : List (Frame N)) (ho : Ordinary (fun _ => False) frs) :
    ∃ w, frames (fun _ => none) frs = some w ∧ (∀ n, (w n).isSome ↔ afterFrames (fun _ => False) frs n) ∧
      ∀ n m, w n = some m → m.added = true ∨
        (m.pv = false ∧ m.pc = false ∧ m.pa = false ∧ m.comp = true ∧ m.last = true) :=
  frames_ok ho _ (by simp) (by simp)


omit [DecidableEq N] in
private theorem onAll_at {w w' : World N} {f : N → Maps → Option Maps} (h : onAll w f = some w') (n : N) :
    (w n = none → w' n = none) ∧ ∀ m, w n = some m → ∃ m', f n m = some m' ∧ w' n = some m' := by
  obtain ⟨a, rfl⟩ := onAll_iff.mp h
  refine ⟨fun e => by simp [e], fun m e => ?_⟩
  obtain ⟨m', e'⟩ := Option.ne_none_iff_exists'.mp (a n m e)
  exact ⟨m', e', by simp [e, e']⟩

private theorem visit_at {w w' : World N} {v : Option N × N} (h : computeVisit w v = some w') (n : N) :
    (w n = none → w' n = none) ∧ (n ≠ v.2 → w' n = w n) ∧ ∀ m, w n = some m → ∃ m', w' n = some m' ∧ m'.pa = m.pa ∧
      m'.comp = m.comp ∧ m'.last = m.last ∧ m'.added = m.added := by
  have one : ∀ u, onNode w v.2 (computeNode u) = some w' → (w n = none → w' n = none) ∧ (n ≠ v.2 → w' n = w n) ∧
      ∀ m, w n = some m → ∃ m', w' n = some m' ∧ m'.pa = m.pa ∧
      m'.comp = m.comp ∧ m'.last = m.last ∧ m'.added = m.added := by
    intro u h
    unfold onNode at h
    cases hv : w v.2 with
    | none =>
      rw [hv] at h
      cases h
      exact ⟨id, fun _ => rfl, fun m e => ⟨m, e, rfl, rfl, rfl, rfl⟩⟩
    | some mv =>
      rw [hv] at h
      simp only at h
      cases hc : computeNode u mv with
      | none => rw [hc] at h; cases h
      | some mv' =>
        rw [hc] at h
        cases h
        have key : mv'.pa = mv.pa ∧ mv'.comp = mv.comp ∧ mv'.last = mv.last ∧ mv'.added = mv.added := by
          unfold computeNode at hc
          split at hc
          · cases hc
          · split at hc
            · cases hc
            · split at hc
              · cases hc; exact ⟨rfl, rfl, rfl, rfl⟩
              · split at hc
                · cases hc
                · cases hc; exact ⟨rfl, rfl, rfl, rfl⟩
        by_cases hn : n = v.2
        · subst hn
          refine ⟨(fun e => by rw [hv] at e; cases e), fun e => absurd rfl e, fun m e => ?_⟩
          rw [hv] at e
          cases e
          exact ⟨mv', by simp, key⟩
        · refine ⟨(fun e => by simpa [hn] using e), (fun _ => by simp [hn]), fun m e => ⟨m, by simpa [hn] using e, rfl, rfl, rfl, rfl⟩⟩
  unfold computeVisit at h
  split at h
  · exact one _ h
  · split at h
    · cases h
      exact ⟨id, fun _ => rfl, fun m e => ⟨m, e, rfl, rfl, rfl, rfl⟩⟩
    · exact one _ h

private theorem compute_at {vs : List (Option N × N)} : ∀ {w w' : World N}, computeAll w vs = some w' → ∀ n,
    (w n = none → w' n = none) ∧ (n ∉ vs.map (·.2) → w' n = w n) ∧ ∀ m, w n = some m → ∃ m', w' n = some m' ∧ m'.pa = m.pa ∧
      m'.comp = m.comp ∧ m'.last = m.last ∧ m'.added = m.added := by
  induction vs with
  | nil =>
    intro w w' h n
    cases h
    exact ⟨id, fun _ => rfl, fun m e => ⟨m, e, rfl, rfl, rfl, rfl⟩⟩
  | cons v vs ih =>
    intro w w' h n
    unfold computeAll at h
    obtain ⟨w1, h1, h2⟩ := Option.bind_eq_some_iff.mp h
    obtain ⟨a1, b1, c1⟩ := visit_at h1 n
    obtain ⟨a2, b2, c2⟩ := ih h2 n
    refine ⟨fun e => a2 (a1 e), fun e => ?_, fun m e => ?_⟩
    · rw [List.map_cons, List.mem_cons, not_or] at e
      rw [b2 e.2, b1 e.1]
    · obtain ⟨m1, e1, d1, d2, d3, d4⟩ := c1 m e
      obtain ⟨m2, e2, f1, f2, f3, f4⟩ := c2 m1 e1
      exact ⟨m2, e2, f1.trans d1, f2.trans d2, f3.trans d3, f4.trans d4⟩

private theorem stages {fr : Frame N} {w w' : World N} (h : frame fr w = some w') :
    ∃ w1 w3 w4 w6, onAll (spawn (fun n => if fr.gone n then none else w n) fr.spawned) (resetNode fr) = some w1 ∧
      onAll (spawn w1 fr.spawnedMid) (setValues fr) = some w3 ∧
      (Busy fr w3 ∧ computeAll w3 fr.visits = some w4 ∨ ¬ Busy fr w3 ∧ onAll w3 keepNode = some w4) ∧
      onAll (spawn w4 fr.spawnedLate) setAnimation = some w6 ∧ onAll w6 (applyNode fr) = some w' := by
  unfold frame at h
  dsimp only at h
  obtain ⟨w1, h1, h⟩ := Option.bind_eq_some_iff.mp h
  obtain ⟨w3, h3, h⟩ := Option.bind_eq_some_iff.mp h
  obtain ⟨w4, h4, h⟩ := Option.bind_eq_some_iff.mp h
  obtain ⟨w6, h6, h⟩ := Option.bind_eq_some_iff.mp h
  refine ⟨w1, w3, w4, w6, h1, h3, ?_, h6, h⟩
  split at h4
  · exact .inl ⟨by assumption, h4⟩
  · exact .inr ⟨by assumption, h4⟩

/-- what holds of the maps of a node after any frame -/
private def Weak (m : Maps) : Prop := m.pc = false ∧ (m.added = true ∨ m.comp = true ∧ m.last = true)

/-- what holds of the maps of a node in any frame -/
private def Kept (m : Maps) : Prop := m.added = true ∨ m.comp = true ∧ m.last = true

omit [DecidableEq N] in
private theorem kept_spawn {w : World N} {s : N → Bool} (h : ∀ n m, w n = some m → Kept m) : ∀ n m, spawn w s n = some m → Kept m := by
  intro n m e
  unfold spawn at e
  split at e
  · cases e; exact .inl rfl
  · exact h n m e

omit [DecidableEq N] in
private theorem kept_all {w w' : World N} {f : N → Maps → Option Maps} (e : onAll w f = some w')
    (hf : ∀ n m m', f n m = some m' → Kept m → Kept m') (h : ∀ n m, w n = some m → Kept m) : ∀ n m, w' n = some m → Kept m := by
  intro n m' e'
  obtain ⟨a, b⟩ := onAll_at e n
  cases hw : w n with
  | none => rw [a hw] at e'; cases e'
  | some m =>
    obtain ⟨m'', e1, e2⟩ := b m hw
    rw [e2] at e'
    cases e'
    exact hf n m _ e1 (h n m hw)

private theorem frame_weak {fr : Frame N} {w w' : World N} (h : frame fr w = some w') (hw : ∀ n m, w n = some m → Weak m) :
    ∀ n m, w' n = some m → Weak m := by
  obtain ⟨w1, w3, w4, w6, h1, h3, h4, h6, h7⟩ := stages h
  have k0 : ∀ n m, spawn (fun n => if fr.gone n then none else w n) fr.spawned n = some m → Kept m := by
    refine kept_spawn fun n m e => ?_
    split at e
    · cases e
    · exact (hw n m e).2
  have k1 : ∀ n m, w1 n = some m → Kept m := by
    refine kept_all h1 (fun n m m' e k => ?_) k0
    unfold resetNode at e
    cases e
    cases ha : m.added
    · rcases k with k | k
      · rw [ha] at k; cases k
      · right
        cases fr.reset n <;> simp [Maps.reset, k]
    · right; simp [Maps.reset]
  have k3 : ∀ n m, w3 n = some m → Kept m := by
    refine kept_all h3 (fun n m m' e k => ?_) (kept_spawn k1)
    unfold setValues at e
    split at e
    · split at e
      · cases e
      · cases e; exact k
    · cases e; exact k
  have k4 : ∀ n m, w4 n = some m → Kept m := by
    rcases h4 with ⟨_, h4⟩ | ⟨_, h4⟩
    · intro n m e
      obtain ⟨a, _, c⟩ := compute_at h4 n
      cases hw3 : w3 n with
      | none => rw [a hw3] at e; cases e
      | some m3 =>
        obtain ⟨m', e', _, d2, d3, d4⟩ := c m3 hw3
        rw [e'] at e
        cases e
        have := k3 n m3 hw3
        unfold Kept at this ⊢
        rw [d2, d3, d4]
        exact this
    · refine kept_all h4 (fun n m m' e k => ?_) k3
      unfold keepNode at e
      split at e
      · cases e
      · cases e; exact k
  have k6 : ∀ n m, w6 n = some m → Kept m := by
    refine kept_all h6 (fun n m m' e k => ?_) (kept_spawn k4)
    unfold setAnimation at e
    split at e
    · cases e
    · cases e; exact k
  have p6 : ∀ n m, w6 n = some m → m.pa = true := by
    intro n m e
    obtain ⟨a, b⟩ := onAll_at h6 n
    cases hs : spawn w4 fr.spawnedLate n with
    | none => rw [a hs] at e; cases e
    | some m5 =>
      obtain ⟨m', e1, e2⟩ := b m5 hs
      rw [e2] at e
      cases e
      unfold setAnimation at e1
      split at e1
      · cases e1
      · cases e1; rfl
  intro n m e
  obtain ⟨a, b⟩ := onAll_at h7 n
  cases hs : w6 n with
  | none => rw [a hs] at e; cases e
  | some m6 =>
    obtain ⟨m', e1, e2⟩ := b m6 hs
    rw [e2] at e
    cases e
    have k := k6 n m6 hs
    have pa := p6 n m6 hs
    unfold applyNode at e1
    split at e1
    · cases e1; exact ⟨rfl, k⟩
    · split at e1
      · rename_i h
        cases e1
        rw [pa] at h
        exact ⟨by simpa using h, k⟩
      · cases e1; exact ⟨rfl, .inr ⟨rfl, rfl⟩⟩

private theorem frames_weak {frs : List (Frame N)} : ∀ {w w' : World N}, frames w frs = some w' →
    (∀ n m, w n = some m → Weak m) → ∀ n m, w' n = some m → Weak m := by
  induction frs with
  | nil => intro w w' h hw; cases h; exact hw
  | cons f frs ih =>
    intro w w' h hw
    unfold frames at h
    obtain ⟨w1, h1, h2⟩ := Option.bind_eq_some_iff.mp h
    exact ih h2 (frame_weak h1 hw)

/-- **C104** fails for a node that is not below a root: if styles are calculated in a frame and a node spawned before it is
not visited, then an assertion fails in that frame or the next, unless the node is reset or gone by then. -/
theorem C104_unreached (frs : List (Frame N)) (w : World N) (hw : frames (fun _ => none) frs = some w)
    (f1 f2 : Frame N) (n : N) (hc : Calculates (fun k => (w k).isSome) f1)
    (hn : f1.spawned n = true ∨ (w n).isSome ∧ f1.gone n = false) (hm : f1.spawnedMid n = false)
    (hl : f1.spawnedLate n = false) (hv : n ∉ f1.visits.map (·.2)) (hg : f2.gone n = false) (hs : f2.spawned n = false)
    (hm2 : f2.spawnedMid n = false) (hl2 : f2.spawnedLate n = false) (hr : f2.reset n = false) :
    frames (fun _ => none) (frs ++ [f1, f2]) = none := by
  rw [frames_append, hw]
  have weak := frames_weak hw (by simp)
  show ((frame f1 w).bind fun w => (frame f2 w).bind some) = none
  by_contra hcon
  obtain ⟨w', hw'⟩ := Option.ne_none_iff_exists'.mp hcon
  obtain ⟨wa, ha, hb⟩ := Option.bind_eq_some_iff.mp hw'
  obtain ⟨wb, hb, _⟩ := Option.bind_eq_some_iff.mp hb
  -- the first frame
  have first : ∃ m, wa n = some m ∧ m.pa = true ∧ m.added = false := by
    obtain ⟨w1, w3, w4, w6, h1, h3, h4, h6, h7⟩ := stages ha
    have e0 : ∃ m, spawn (fun n => if f1.gone n then none else w n) f1.spawned n = some m ∧ m.pc = false ∧ Kept m := by
      unfold spawn
      by_cases hsp : f1.spawned n = true
      · rw [if_pos hsp]; exact ⟨_, rfl, rfl, .inl rfl⟩
      · rw [if_neg hsp]
        obtain ⟨m, e⟩ := Option.isSome_iff_exists.mp (hn.resolve_left hsp).1
        refine ⟨m, by simp [(hn.resolve_left hsp).2, e], weak n m e⟩
    obtain ⟨m0, e0, p0, k0⟩ := e0
    obtain ⟨m1, r1, e1⟩ := (onAll_at h1 n).2 m0 e0
    have q1 : m1.pc = false ∧ m1.comp = true ∧ m1.added = false := by
      unfold resetNode at r1
      cases r1
      cases ha : m0.added
      · rcases k0 with k | k
        · rw [ha] at k; cases k
        · cases f1.reset n <;> simp [Maps.reset, k, p0]
      · simp [Maps.reset]
    obtain ⟨m3, r3, e3⟩ := (onAll_at h3 n).2 m1 (by unfold spawn; rw [hm]; exact e1)
    have q3 : m3.pc = false ∧ m3.comp = true ∧ m3.added = false := by
      unfold setValues at r3
      split at r3
      · split at r3
        · cases r3
        · cases r3; exact q1
      · cases r3; exact q1
    have busy : Busy f1 w3 := by
      obtain ⟨k, hk, hr⟩ := hc
      refine ⟨k, hr, ?_⟩
      have s2 : (spawn w1 f1.spawnedMid k).isSome := by
        unfold spawn
        split
        · rfl
        · have : (spawn (fun n => if f1.gone n then none else w n) f1.spawned k).isSome := by
            unfold spawn
            rcases hk with h | h | h
            · simp [h]
            · simp_all
            · split
              · rfl
              · simpa [h.2] using h.1
          obtain ⟨mk, ek⟩ := Option.isSome_iff_exists.mp this
          obtain ⟨_, _, e⟩ := (onAll_at h1 k).2 mk ek
          rw [e]; rfl
      obtain ⟨mk, ek⟩ := Option.isSome_iff_exists.mp s2
      obtain ⟨_, _, e⟩ := (onAll_at h3 k).2 mk ek
      rw [e]; rfl
    have h4 : computeAll w3 f1.visits = some w4 := by
      rcases h4 with h | h
      · exact h.2
      · exact absurd busy h.1
    have e4 : w4 n = some m3 := by rw [(compute_at h4 n).2.1 hv, e3]
    obtain ⟨m6, r6, e6⟩ := (onAll_at h6 n).2 m3 (by unfold spawn; rw [hl]; exact e4)
    have q6 : m6.pc = false ∧ m6.comp = true ∧ m6.added = false ∧ m6.pa = true := by
      unfold setAnimation at r6
      split at r6
      · cases r6
      · cases r6; exact ⟨q3.1, q3.2.1, q3.2.2, rfl⟩
    obtain ⟨m7, r7, e7⟩ := (onAll_at h7 n).2 m6 e6
    refine ⟨m7, e7, ?_⟩
    have : m7 = m6 := by
      unfold applyNode marked at r7
      simp [q6] at r7
      exact r7.symm
    rw [this]; exact ⟨q6.2.2.2, q6.2.2.1⟩
  obtain ⟨ma, ea, pa, aa⟩ := first
  obtain ⟨w1, w3, w4, w6, h1, h3, h4, h6, h7⟩ := stages hb
  obtain ⟨m1, r1, e1⟩ := (onAll_at h1 n).2 ma (by unfold spawn; rw [hs]; simpa [hg] using ea)
  have q1 : m1.pa = true := by
    unfold resetNode at r1
    rw [hr, aa] at r1
    cases r1
    exact pa
  obtain ⟨m3, r3, e3⟩ := (onAll_at h3 n).2 m1 (by unfold spawn; rw [hm2]; exact e1)
  have q3 : m3.pa = true := by
    unfold setValues at r3
    split at r3
    · split at r3
      · cases r3
      · cases r3; exact q1
    · cases r3; exact q1
  have e4 : ∃ m4, w4 n = some m4 ∧ m4.pa = true := by
    rcases h4 with ⟨_, h4⟩ | ⟨_, h4⟩
    · obtain ⟨m', e', d, _⟩ := (compute_at h4 n).2.2 m3 e3
      exact ⟨m', e', d.trans q3⟩
    · obtain ⟨m', r, e'⟩ := (onAll_at h4 n).2 m3 e3
      refine ⟨m', e', ?_⟩
      unfold keepNode at r
      split at r
      · cases r
      · cases r; exact q3
  obtain ⟨m4, e4, q4⟩ := e4
  obtain ⟨m6, r6, _⟩ := (onAll_at h6 n).2 m4 (by unfold spawn; rw [hl2]; exact e4)
  unfold setAnimation at r6
  rw [q4] at r6
  cases r6

/-- **C104** fails for a node spawned between `StyleSystems::Prepare` and the calculation of styles, if it is a root (or
its parent is a node) and a style is calculated in that frame. -/
theorem C104_spawned_mid (frs : List (Frame N)) (w : World N) (hw : frames (fun _ => none) frs = some w)
    (fr : Frame N) (n : N) (hc : Calculates (fun k => (w k).isSome) fr) (hn : fr.spawnedMid n = true)
    (up : Option N) (hv : (up, n) ∈ fr.visits) (hup : ∀ p, up = some p → inFrame (fun k => (w k).isSome) fr p) :
    frames (fun _ => none) (frs ++ [fr]) = none := by
  rw [frames_append, hw]
  show ((frame fr w).bind some) = none
  by_contra hcon
  obtain ⟨w', hw'⟩ := Option.ne_none_iff_exists'.mp hcon
  obtain ⟨wa, ha, _⟩ := Option.bind_eq_some_iff.mp hw'
  obtain ⟨w1, w3, w4, w6, h1, h3, h4, h6, h7⟩ := stages ha
  have some3 : ∀ k, inFrame (fun k => (w k).isSome) fr k → ∃ m, w3 k = some m := by
    intro k hk
    have s2 : (spawn w1 fr.spawnedMid k).isSome := by
      unfold spawn
      split
      · rfl
      · have : (spawn (fun n => if fr.gone n then none else w n) fr.spawned k).isSome := by
          unfold spawn
          rcases hk with h | h | h
          · simp [h]
          · simp_all
          · split
            · rfl
            · simpa [h.2] using h.1
        obtain ⟨mk, ek⟩ := Option.isSome_iff_exists.mp this
        obtain ⟨_, _, e⟩ := (onAll_at h1 k).2 mk ek
        rw [e]; rfl
    obtain ⟨mk, ek⟩ := Option.isSome_iff_exists.mp s2
    obtain ⟨m, _, e⟩ := (onAll_at h3 k).2 mk ek
    exact ⟨m, e⟩
  have busy : Busy fr w3 := by
    obtain ⟨k, hk, hr⟩ := hc
    obtain ⟨m, e⟩ := some3 k hk
    exact ⟨k, hr, by rw [e]; rfl⟩
  have h4 : computeAll w3 fr.visits = some w4 := by
    rcases h4 with h | h
    · exact h.2
    · exact absurd busy h.1
  obtain ⟨m3, r3, e3⟩ := (onAll_at h3 n).2 Maps.fresh (by unfold spawn; rw [hn]; rfl)
  have q3 : m3.last = false := by
    unfold setValues at r3
    split at r3
    · split at r3
      · cases r3
      · cases r3; rfl
    · cases r3; rfl
  obtain ⟨a, b, e⟩ := List.append_of_mem hv
  have split : ∀ (a b : List (Option N × N)) (w w' : World N), computeAll w (a ++ b) = some w' →
      ∃ w1, computeAll w a = some w1 ∧ computeAll w1 b = some w' := by
    intro a
    induction a with
    | nil => intro b w w' h; exact ⟨w, rfl, h⟩
    | cons x a ih =>
      intro b w w' h
      rw [List.cons_append] at h
      unfold computeAll at h
      obtain ⟨w1, h1, h2⟩ := Option.bind_eq_some_iff.mp h
      obtain ⟨w2, h3, h4⟩ := ih b w1 w' h2
      exact ⟨w2, by unfold computeAll; rw [h1]; exact h3, h4⟩
  rw [e] at h4
  obtain ⟨wx, hx, hy⟩ := split a _ w3 w4 h4
  unfold computeAll at hy
  obtain ⟨wy, hy, _⟩ := Option.bind_eq_some_iff.mp hy
  obtain ⟨mx, ex, _, _, lx, _⟩ := (compute_at hx n).2.2 m3 e3
  have lx : mx.last = false := lx.trans q3
  have no : ∀ u, onNode wx n (computeNode u) ≠ some wy := by
    intro u h
    unfold onNode at h
    rw [ex] at h
    unfold computeNode at h
    simp [lx] at h
  unfold computeVisit at hy
  cases up with
  | none => exact no _ hy
  | some p =>
    obtain ⟨mp, ep⟩ := some3 p (hup p rfl)
    obtain ⟨mp', ep', _⟩ := (compute_at hx p).2.2 mp ep
    simp only [ep'] at hy
    exact no _ hy

end Nodes

/-- Two nodes: node 0 is a root, node 1 its child (or not below a root); both are spawned, then the root is restyled. -/
def exampleFrame (first : Bool) (visits : List (Option (Fin 2) × Fin 2)) : Frame (Fin 2) where
  gone _ := false
  spawned _ := first
  reset _ := false
  spawnedMid _ := false
  recalc n := first || n = 0
  visits := visits
  spawnedLate _ := false
  moved _ := false

private theorem visits_two (nodes : Fin 2 → Prop) (h : nodes 0) : VisitsAll nodes [(none, 0), (some 0, 1)] where
  once := by decide
  all n _ := (by decide : ∀ n : Fin 2, n ∈ ([(none, 0), (some 0, 1)] : List (Option (Fin 2) × Fin 2)).map (·.2)) n
  parents a b p n e := by
    match a with
    | [] => simp at e
    | [x] =>
      simp only [List.cons_append, List.nil_append, List.cons.injEq, Prod.mk.injEq, Option.some.injEq] at e
      obtain ⟨rfl, ⟨rfl, rfl⟩, _⟩ := e
      exact ⟨by simp, h⟩
    | x :: y :: r =>
      have := congrArg List.length e
      simp at this

/-- the hypotheses of `C104_nodes_partial` hold of a root and its child -/
example : Ordinary (fun _ => False) [exampleFrame true [(none, 0), (some 0, 1)], exampleFrame false [(none, 0), (some 0, 1)]] := by
  refine .cons (fun _ => ⟨fun _ => rfl, visits_two _ (.inl rfl)⟩) (.cons (fun _ => ⟨fun _ => rfl, visits_two _ ?_⟩) (.nil _))
  exact .inr (.inr ⟨.inl (.inl rfl), rfl⟩)

/-- **C104** is false in general: a root, and a node that is not below a root (`TextSpan`s of a `Text2d` are not), with a
style: two frames are enough. -/
theorem C104_nodes_false : ∃ frs : List (Frame (Fin 2)), frames (fun _ => none) frs = none :=
  ⟨_, C104_unreached [] (fun _ => none) rfl (exampleFrame true [(none, 0)]) (exampleFrame false [(none, 0)]) 1
    ⟨0, .inl rfl, rfl⟩ (.inl rfl) rfl rfl (by decide) rfl rfl rfl rfl rfl⟩

/-- a node spawned in between -/
example : ∃ frs : List (Frame (Fin 2)), frames (fun _ => none) frs = none :=
  ⟨_, C104_spawned_mid [] (fun _ => none) rfl { exampleFrame true [(none, 0), (none, 1)] with
      spawned := fun n => n = 0, spawnedMid := fun n => n = 1 } 1 ⟨0, .inl rfl, rfl⟩ rfl none (by decide) (by intro p h; cases h)⟩


/-! ## Values -/

open Flair.Calc in
/-- **C104** (interpolation): an assertion fails exactly when a zero length meets `auto`, as in a transition of `width` from
`0` to `auto`. -/
theorem C104_length_iff (a b : Val) :
    valAsserts a b = false ↔ (∃ u, a = .len u 0 ∧ b = .auto) ∨ (a = .auto ∧ ∃ u, b = .len u 0) := by
  cases a with
  | auto =>
    cases b with
    | auto => simp [valAsserts, Interpolate.sameVariant]
    | len u y =>
      by_cases h : y = 0 <;> simp [valAsserts, Interpolate.sameVariant, Val.isZero, Val.mul, h]
  | len u x =>
    cases b with
    | auto =>
      by_cases h : x = 0 <;> simp [valAsserts, Interpolate.sameVariant, Val.isZero, Val.mul, h]
    | len v y =>
      by_cases e : u = v
      · simp [valAsserts, Interpolate.sameVariant, e]
      · by_cases h : x = 0 <;> by_cases h' : y = 0 <;>
          simp [valAsserts, Interpolate.sameVariant, Val.isZero, Val.mul, h, h', e]

open Flair.Calc in
example : valAsserts (.len .px 0) .auto = false ∧ valAsserts (.len .px 0) (.len .percent 50) = true ∧
    valAsserts (.len .px 3) .auto = true := by
  refine ⟨(C104_length_iff _ _).mpr (.inl ⟨_, rfl, rfl⟩), ?_, ?_⟩ <;> decide +kernel

/-- **C104** (interpolation): so it is for pairs of lengths. -/
theorem C104_lengths_iff (a b : Interpolate.Val2) :
    val2Asserts a b = false ↔ valAsserts a.x b.x = false ∨ valAsserts a.y b.y = false := by
  unfold val2Asserts
  cases valAsserts a.x b.x <;> simp

/-! ## Easing functions -/

private theorem sorted_head {S : Type} {l : List (ℚ × S)} {x : ℚ} (h : l.Pairwise fun a b => a.1 < b.1) (hx : ∃ v, (x, v) ∈ l) :
    (l.head?.map Prod.fst = some x ↔ ∀ y ∈ l, x ≤ y.1) := by
  cases l with
  | nil => obtain ⟨v, hv⟩ := hx; cases hv
  | cons a l =>
    have h' := List.pairwise_cons.mp h
    constructor
    · intro e y hy
      have e : a.1 = x := by simpa using e
      rcases List.mem_cons.mp hy with rfl | hy
      · exact le_of_eq e.symm
      · have := h'.1 y hy; rw [e] at this; exact le_of_lt this
    · intro k
      obtain ⟨v, hv⟩ := hx
      have k1 := k a List.mem_cons_self
      rcases List.mem_cons.mp hv with e | hv
      · simp [← e]
      · have := h'.1 _ hv
        exact absurd k1 (not_le.mpr this)

private theorem sorted_last {S : Type} {l : List (ℚ × S)} {x : ℚ} (h : l.Pairwise fun a b => a.1 < b.1) (hx : ∃ v, (x, v) ∈ l) :
    (l.getLast?.map Prod.fst = some x ↔ ∀ y ∈ l, y.1 ≤ x) := by
  induction l using List.reverseRecOn with
  | nil => obtain ⟨v, hv⟩ := hx; cases hv
  | append_singleton l a _ =>
    have h' := List.pairwise_append.mp h
    rw [List.getLast?_concat]
    constructor
    · intro e y hy
      have e : a.1 = x := by simpa using e
      rcases List.mem_append.mp hy with hy | hy
      · have := h'.2.2 y hy a (by simp); rw [e] at this; exact le_of_lt this
      · rw [List.mem_singleton.mp hy, e]
    · intro k
      obtain ⟨v, hv⟩ := hx
      have k1 := k a (by simp)
      rcases List.mem_append.mp hv with hv | hv
      · have := h'.2.2 _ hv a (by simp)
        exact absurd k1 (not_le.mpr this)
      · simp [← List.mem_singleton.mp hv]

open Flair.Easing Flair.Keyframes Flair.Proofs.Curve in
/-- an assertion fails exactly when there are two control points or more and one is outside of [0, 1] -/
private theorem points_iff (points : List (ℚ × ℚ)) :
    curveAsserts (.linearPoints points) = false ↔ 2 ≤ points.length ∧ ∃ x ∈ points, x.1 < 0 ∨ 1 < x.1 := by
  match points with
  | [] => simp [curveAsserts, EasingFunction.curve]
  | [p] => simp [curveAsserts, EasingFunction.curve]
  | p :: q :: l =>
    obtain ⟨hs, hm⟩ := coreNew_spec ((p :: q :: l) ++ [(0, 0), (1, 1)])
    set core := dedup (((p :: q :: l) ++ [(0, 0), (1, 1)]).mergeSort fun a b => a.1 ≤ b.1) with hcore
    have ex : ∀ k, (∃ v, (k, v) ∈ core) ↔ ∃ v, (k, v) ∈ (p :: q :: l) ++ [((0 : ℚ), (0 : ℚ)), (1, 1)] := by
      intro k
      constructor
      · rintro ⟨v, hv⟩
        exact ⟨v, List.mem_of_find?_eq_some ((hm _).mp hv)⟩
      · rintro ⟨v, hv⟩
        have : ((p :: q :: l) ++ [((0 : ℚ), (0 : ℚ)), (1, 1)]).find? (fun y => decide (y.1 = k)) ≠ none := by
          rw [ne_eq, List.find?_eq_none]
          intro h
          exact h _ hv (by simp)
        obtain ⟨x, hx⟩ := Option.ne_none_iff_exists'.mp this
        have hk : x.1 = k := by simpa using List.find?_some hx
        refine ⟨x.2, (hm _).mpr ?_⟩
        rw [← hk] at hx ⊢
        exact hx
    have e0 : ∃ v, ((0 : ℚ), v) ∈ core := (ex 0).mpr ⟨0, by simp⟩
    have e1 : ∃ v, ((1 : ℚ), v) ∈ core := (ex 1).mpr ⟨1, by simp⟩
    have hlen : ¬ core.length < 2 := by
      obtain ⟨v, hv⟩ := e0
      obtain ⟨v', hv'⟩ := e1
      match h : core with
      | [] => cases hv
      | [x] =>
        have := (List.mem_singleton.mp hv).trans (List.mem_singleton.mp hv').symm
        simp at this
      | _ :: _ :: _ => simp
    have hc : coreNew ((p :: q :: l) ++ [(0, 0), (1, 1)]) = some core := by
      unfold coreNew
      simp only [← hcore]
      rw [if_neg hlen]
    have he : (EasingFunction.linearPoints (p :: q :: l)).curve = some (.linearPoints core) := by
      show (coreNew ((p :: q :: l) ++ [(0, 0), (1, 1)])).map _ = _
      rw [hc]; rfl
    unfold curveAsserts
    rw [he]
    have a0 := sorted_head hs e0
    have a1 := sorted_last hs e1
    simp only [Bool.and_eq_false_iff, decide_eq_false_iff_not]
    rw [a0, a1]
    have all : ∀ P : ℚ → Prop, (∀ y ∈ core, P y.1) ↔ (∀ y ∈ p :: q :: l, P y.1) ∧ P 0 ∧ P 1 := by
      intro P
      constructor
      · intro h
        have h' : ∀ k v, (k, v) ∈ (p :: q :: l) ++ [((0 : ℚ), (0 : ℚ)), (1, 1)] → P k := by
          intro k v hv
          obtain ⟨v', hv'⟩ := (ex k).mpr ⟨v, hv⟩
          exact h _ hv'
        exact ⟨fun y hy => h' y.1 y.2 (List.mem_append_left _ hy), h' 0 0 (by simp), h' 1 1 (by simp)⟩
      · rintro ⟨h, h0, h1⟩ y hy
        obtain ⟨v, hv⟩ := (ex y.1).mp ⟨y.2, hy⟩
        rcases List.mem_append.mp hv with hv | hv
        · have := h (y.1, v) hv
          exact this
        · simp only [List.mem_cons, Prod.mk.injEq, List.not_mem_nil, or_false] at hv
          rcases hv with ⟨e, _⟩ | ⟨e, _⟩
          · rw [e]; exact h0
          · rw [e]; exact h1
    rw [all (fun k => 0 ≤ k), all (fun k => k ≤ 1)]
    constructor
    · rintro (h | h)
      · by_contra hcon
        push Not at hcon
        exact h ⟨fun y hy => (hcon (by simp) y hy).1, by norm_num, by norm_num⟩
      · by_contra hcon
        push Not at hcon
        exact h ⟨fun y hy => (hcon (by simp) y hy).2, by norm_num, by norm_num⟩
    · rintro ⟨_, x, hx, h | h⟩
      · exact .inl fun k => absurd (k.1 x hx) (not_le.mpr h)
      · exact .inr fun k => absurd (k.1 x hx) (not_le.mpr h)

open Flair.Easing in
/-- **C104** (easing functions): using `linear()` with two control points or more fails an assertion exactly when the
position written for the first is negative, or some written position is beyond 100%.  (CSS allows both.) -/
theorem C104_linear_iff (l : List (Option ℚ × ℚ)) :
    ((linearPoints l).map fun ps => curveAsserts (.linearPoints ps)) = some false ↔
      2 ≤ l.length ∧ ((∃ p, l.head?.bind (·.1) = some p ∧ p < 0) ∨ ∃ x ∈ l, ∃ p, x.1 = some p ∧ 1 < p) := by
  obtain ⟨out, e, hc⟩ := C51_linear_completed l
  rw [e]
  simp only [Option.map_some, Option.some.injEq]
  rw [points_iff]
  have hl : out.length = l.length := by have := congrArg List.length hc.values; simpa using this
  rw [hl]
  refine and_congr_right fun h2 => ?_
  -- the position of the first point, and of the last
  have first : ∃ g, givenPosition l 0 = some g ∧ (g = (l.head?.bind (·.1)).getD 0) := by
    match l, h2 with
    | (none, v) :: r, _ => exact ⟨0, rfl, rfl⟩
    | (some p, v) :: r, _ => exact ⟨p, rfl, rfl⟩
  have last : ∃ g, givenPosition l (l.length - 1) = some g := by
    have : l.length - 1 < l.length := by omega
    unfold givenPosition
    rw [List.getElem?_eq_getElem this]
    cases hx : l[l.length - 1] with
    | mk a v =>
      cases a with
      | some p => exact ⟨p, rfl⟩
      | none =>
        refine ⟨1, ?_⟩
        show (if l.length - 1 = 0 then some 0 else if l.length - 1 + 1 = l.length then some 1 else none) = some (1 : ℚ)
        rw [if_neg (by omega), if_pos (by omega)]
  obtain ⟨g, hg, hg'⟩ := first
  obtain ⟨p0, v0, o0, m0⟩ := hc.given 0 g hg
  have p0g : p0 = g := by
    obtain ⟨j, hj, hq⟩ := m0.1
    obtain rfl : j = 0 := by omega
    rw [hg] at hq
    exact (Option.some.inj hq).symm
  obtain ⟨gl, hgl⟩ := last
  obtain ⟨p1, v1, o1, m1⟩ := hc.given _ gl hgl
  have mono : ∀ (i j : ℕ) (x y : ℚ × ℚ), i ≤ j → out[i]? = some x → out[j]? = some y → x.1 ≤ y.1 := by
    intro i j x y hij hi hj
    rcases Nat.lt_or_ge i j with h | h
    · have hs := hc.sorted
      have hj' : j < out.length := (List.getElem?_eq_some_iff.mp hj).1
      have := List.pairwise_iff_getElem.mp hs i j (by simp; omega) (by simp; omega) h
      simp only [List.getElem_map] at this
      obtain ⟨_, e1⟩ := List.getElem?_eq_some_iff.mp hi
      obtain ⟨_, e2⟩ := List.getElem?_eq_some_iff.mp hj
      rw [e1, e2] at this
      exact this
    · obtain rfl : i = j := by omega
      rw [hi] at hj
      cases hj
      exact le_refl _
  constructor
  · rintro ⟨x, hx, h | h⟩
    · left
      obtain ⟨i, hi⟩ := List.mem_iff_getElem?.mp hx
      have := mono 0 i _ _ (Nat.zero_le _) o0 hi
      simp only at this
      have hneg : g < 0 := by rw [← p0g]; linarith
      cases hh : l.head?.bind (·.1) with
      | none => rw [hh] at hg'; rw [hg'] at hneg; simp at hneg
      | some p => rw [hh] at hg'; exact ⟨p, rfl, by rw [hg'] at hneg; exact hneg⟩
    · right
      obtain ⟨i, hi⟩ := List.mem_iff_getElem?.mp hx
      have hil := (List.getElem?_eq_some_iff.mp hi).1
      have := mono i _ _ _ (by omega) hi o1
      simp only at this
      obtain ⟨j, hj, hq⟩ := m1.1
      have big : 1 < p1 := by linarith
      unfold givenPosition at hq
      cases hlj : l[j]? with
      | none => rw [hlj] at hq; cases hq
      | some y =>
        rw [hlj] at hq
        obtain ⟨a, v⟩ := y
        cases a with
        | some p =>
          have hq : p = p1 := by simpa using hq
          exact ⟨(some p, v), List.mem_of_getElem? hlj, p, rfl, by rw [hq]; exact big⟩
        | none =>
          simp only at hq
          split at hq
          · have : (0 : ℚ) = p1 := by simpa using hq
            linarith
          · split at hq
            · have : (1 : ℚ) = p1 := by simpa using hq
              linarith
            · cases hq
  · rintro (⟨p, hp, hneg⟩ | ⟨x, hx, p, hp, hbig⟩)
    · refine ⟨(p0, v0), List.mem_of_getElem? o0, .inl ?_⟩
      rw [hp] at hg'
      simp only [Option.getD_some] at hg'
      simp only [p0g, hg']
      exact hneg
    · refine ⟨(p1, v1), List.mem_of_getElem? o1, .inr ?_⟩
      obtain ⟨j, hj⟩ := List.mem_iff_getElem?.mp hx
      have hjl := (List.getElem?_eq_some_iff.mp hj).1
      have : p ≤ p1 := by
        apply m1.2
        refine ⟨j, by omega, ?_⟩
        unfold givenPosition
        rw [hj]
        obtain ⟨a, v⟩ := x
        simp only at hp
        subst hp
        rfl
      simp only
      linarith

/-- `linear(0 -20%, 1 120%)` and `linear(0 10%, 0.5 5%, 1)` -/
example : (((Easing.linearPoints [(some (-1/5), 0), (some (6/5), 1)]).map fun ps => curveAsserts (.linearPoints ps)) = some false) ∧
    ¬ (((Easing.linearPoints [(some (1/10), 0), (some (-1/20), 1/2), (none, 1)]).map fun ps =>
      curveAsserts (.linearPoints ps)) = some false) := by
  rw [C104_linear_iff, C104_linear_iff]
  refine ⟨⟨by simp, .inl ⟨-1/5, rfl, by norm_num⟩⟩, ?_⟩
  rintro ⟨_, ⟨p, h, h'⟩ | ⟨x, hx, p, h, h'⟩⟩
  · have : (1/10 : ℚ) = p := by simpa using h
    rw [← this] at h'; norm_num at h'
  · simp only [List.mem_cons, List.not_mem_nil, or_false] at hx
    rcases hx with rfl | rfl | rfl
    · have : (1/10 : ℚ) = p := by simpa using h
      rw [← this] at h'; norm_num at h'
    · have : (-1/20 : ℚ) = p := by simpa using h
      rw [← this] at h'; norm_num at h'
    · cases h

/-- The other easing functions fail none. -/
theorem C104_other_easing (n : ℤ) (pos : Easing.StepPosition) :
    curveAsserts .linear = true ∧ curveAsserts (.steps n pos) = true := ⟨rfl, rfl⟩

/-! ## Animations -/

section
open Flair.Animation

/-- an animation of no iterations does not run -/
private def NoneRun (a : Anim) : Prop := a.max = some 0 → a.state = .finished ∨ a.state = .canceled

private theorem loop_facts : ∀ f a b, Anim.loop f a = some b → a.max ≠ some 0 → b.max = a.max := by
  intro f
  induction f with
  | zero => intro a b h; cases h
  | succ f ih =>
    intro a b h hm
    unfold Anim.loop at h
    split at h
    · split at h
      · cases h; rfl
      · have := ih _ _ h (by exact hm)
        exact this
    · cases h; rfl

private theorem tick_noneRun {a b : Anim} {d : Nat} (h : a.Ticks d b) (ha : NoneRun a) : NoneRun b ∧ (a.max = some 0 → b = a) := by
  obtain ⟨f, h⟩ := h
  unfold Anim.tick at h
  by_cases hm : a.max = some 0
  · have : a.canTick = false := by
      unfold Anim.canTick
      rcases ha hm with e | e <;> rw [e] <;> rfl
    rw [this] at h
    cases h
    exact ⟨ha, fun _ => rfl⟩
  · refine ⟨?_, fun h => absurd h hm⟩
    have : b.max = a.max := by
      generalize (if a.paused = true then a.elapsed else a.elapsed + d) = e at h
      split at h
      · cases h; rfl
      · dsimp only at h
        by_cases hj : a.state = .justFinished
        · rw [if_pos hj] at h
          split at h <;> (cases h; rfl)
        · rw [if_neg hj] at h
          generalize hc : (if a.state = AState.pending ∧ e ≥ Anim.iterDelay { a with elapsed := e } then
            ({ a with elapsed := e, state := .running } : Anim) else { a with elapsed := e }) = c at h
          have hcm : c.max = a.max := by rw [← hc]; split <;> rfl
          by_cases hr : c.state = .running
          · rw [if_pos hr] at h
            rw [loop_facts _ _ _ h (by rw [hcm]; exact hm), hcm]
          · rw [if_neg hr] at h
            cases h; exact hcm
    intro h0
    rw [this] at h0
    exact absurd h0 hm

private theorem restart_noneRun (o : Options) : NoneRun (restart o) := by
  intro h
  have h : o.count = some 0 := h
  left
  show (if o.count = some 0 then AState.finished else .pending) = _
  rw [if_pos h]

private theorem lived_noneRun {a : Anim} (h : AnimLives a) : NoneRun a := by
  induction h with
  | new o => exact restart_noneRun o
  | tick d _ ht ih => exact (tick_noneRun ht ih).1
  | update o _ hu _ =>
    obtain ⟨c, d, h1, h2, rfl⟩ := hu
    have hc : NoneRun c := by
      split at h1
      · exact (tick_noneRun h1 (restart_noneRun o)).1
      · rw [h1]; exact restart_noneRun o
    have hd : NoneRun d := by
      split at h2
      · exact (tick_noneRun h2 hc).1
      · rw [h2]; exact hc
    exact hd
  | cancel _ _ => exact fun _ => .inr rfl

private theorem loopAsserts_ok : ∀ f (a : Anim), a.max ≠ some 0 → loopAsserts f a = true := by
  intro f
  induction f with
  | zero => intro a _; rfl
  | succ f ih =>
    intro a hm
    unfold loopAsserts
    split
    · have hl : lastAsserts a = true := decide_eq_true hm
      rw [hl, Bool.true_and]
      split
      · rfl
      · rename_i hlast
        have h1 : lastAsserts { a with elapsed := a.elapsed - a.iterDuration } = true := decide_eq_true hm
        have h2 : Anim.onLast { a with elapsed := a.elapsed - a.iterDuration } = false := by
          have : Anim.onLast { a with elapsed := a.elapsed - a.iterDuration } = a.onLast := rfl
          rw [this]; simpa using hlast
        simp only [h1, h2]
        rw [Bool.not_false, Bool.true_and]
        exact ih _ hm
    · rfl

private theorem tickAsserts_ok (f : Nat) (a : Anim) (d : Nat) (h : NoneRun a) : tickAsserts f a d = true := by
  unfold tickAsserts
  split
  · rfl
  · rename_i hc
    have hm : a.max ≠ some 0 := by
      intro hm
      apply hc
      unfold Anim.canTick
      rcases h hm with e | e <;> rw [e] <;> rfl
    generalize (if a.paused = true then a.elapsed else a.elapsed + d) = e
    dsimp only
    by_cases hj : a.state = .justFinished
    · rw [if_pos hj]
    · rw [if_neg hj]
      generalize hc : (if a.state = AState.pending ∧ e ≥ Anim.iterDelay { a with elapsed := e } then
        ({ a with elapsed := e, state := .running } : Anim) else { a with elapsed := e }) = c
      by_cases hr : c.state = .running
      · rw [if_pos hr]
        apply loopAsserts_ok
        rw [← hc]
        split <;> exact hm
      · rw [if_neg hr]

/-- **C104** (animations): however an animation has lived, ticking it, however far, fails no assertion, giving it new
options (which ticks it up to twice) fails none, and taking its value fails none. -/
theorem C104_animations (a : Anim) (h : AnimLives a) :
    (∀ fuel d, tickAsserts fuel a d = true) ∧
    (∀ o fuel, tickAsserts fuel (restart o) a.totalElapsed = true ∧
      ∀ c, (restart o).Ticks a.totalElapsed c → tickAsserts fuel c 1000000 = true) ∧
    sampleAsserts a = true := by
  refine ⟨fun f d => tickAsserts_ok f a d (lived_noneRun h), fun o f => ⟨tickAsserts_ok f _ _ (restart_noneRun o), fun c hc =>
    tickAsserts_ok f c _ (tick_noneRun hc (restart_noneRun o)).1⟩, ?_⟩
  unfold sampleAsserts sampleT
  cases F32.div (secs a.elapsed - secs a.iterDelay) (secs a.duration) with
  | num t =>
    dsimp only
    by_cases h1 : 0 ≤ t ∧ t ≤ 1 ∧ (a.state = .running ∨ a.state = .justFinished)
    · rw [if_pos h1]; exact decide_eq_true ⟨h1.1, h1.2.1⟩
    rw [if_neg h1]
    split_ifs with h2 h3
    · exact decide_eq_true ⟨le_refl _, by norm_num⟩
    · exact decide_eq_true ⟨by norm_num, le_refl _⟩
    · rfl
  | ninf =>
    dsimp only
    cases a.fill.isBackwards
    · rfl
    · exact decide_eq_true ⟨le_refl _, by norm_num⟩
  | pinf =>
    dsimp only
    cases a.fill.isForwards
    · rfl
    · exact decide_eq_true ⟨by norm_num, le_refl _⟩
  | nan => rfl

/-- **C104** (animations): the `t` the assertion is about is the one the value is taken at. -/
theorem C104_sampled {V : Type} (curve : ℚ → V) (a : Anim) : a.sampleValue curve = (sampleT a).map fun t => curve (a.transform t) := by
  unfold Anim.sampleValue sampleT
  cases F32.div (secs a.elapsed - secs a.iterDelay) (secs a.duration) with
  | num t => dsimp only; split_ifs <;> rfl
  | ninf => dsimp only; split <;> rfl
  | pinf => dsimp only; split <;> rfl
  | nan => rfl

/-- An animation with no iterations that would run fails the assertion: options of count 0 must be finished at once. -/
example : ∃ a : Anim, loopAsserts 1 a = false ∧ ¬ AnimLives a := by
  refine ⟨{ restart ⟨0, 1, .normal, some 0, .none, false⟩ with state := .running, elapsed := 5 }, by decide +kernel, fun h => ?_⟩
  rcases lived_noneRun h rfl with e | e <;> cases e

example (o : Options) : AnimLives (Animation.new o).cancel := .cancel (.new o)
end

/-! ## Keyframes -/

section
open Flair.Keyframes
variable {D E V : Type}

private theorem nextEntry_mem : ∀ {l : List (ℚ × Cell V)} {x}, nextEntry l = some x → x.1 ∈ l.map (·.1) := by
  intro l
  induction l with
  | nil => intro x h; cases h
  | cons y l ih =>
    intro x h
    obtain ⟨t, c⟩ := y
    cases c with
    | some v => cases h; simp
    | none => exact List.mem_cons_of_mem _ (ih h)

private theorem mid_ok : ∀ (l : List (ℚ × Cell V)) (prev : ℚ), (prev :: l.map (·.1)).Pairwise (· < ·) → midAsserts prev l = true := by
  intro l
  induction l with
  | nil => intro _ _; rfl
  | cons y l ih =>
    intro prev h
    obtain ⟨t, c⟩ := y
    rw [List.map_cons] at h
    obtain ⟨h1, h2⟩ := List.pairwise_cons.mp h
    cases c with
    | some v => exact ih t h2
    | none =>
      unfold midAsserts
      rw [ih t h2, Bool.and_true]
      cases hn : nextEntry l with
      | none => rfl
      | some x =>
        have hx := nextEntry_mem hn
        have lt1 : prev < t := h1 t (by simp)
        have lt2 : t < x.1 := (List.pairwise_cons.mp h2).1 _ hx
        have pos : 0 < x.1 - prev := by linarith
        refine decide_eq_true ⟨div_nonneg (by linarith) (le_of_lt pos), ?_⟩
        rw [div_le_one pos]
        linarith

private theorem fillEnds_fst (cur : Option V) (l : List (ℚ × Cell V)) : (fillEnds cur l).map (·.1) = l.map (·.1) := by
  have one : ∀ (l : List (ℚ × Cell V)) i, (l.modify i (fillCell cur)).map (·.1) = l.map (·.1) := by
    intro l
    induction l with
    | nil => intro i; cases i <;> rfl
    | cons x l ih =>
      intro i
      cases i with
      | zero => rfl
      | succ i => simp [List.modify_succ_cons, ih i]
  unfold fillEnds
  rw [one, one]

/-- **C104** (keyframes): whatever an `@keyframes` block says, building its keyframes and resolving any property of them,
whatever its current value, fails no assertion. -/
theorem C104_keyframes {P : Type} [DecidableEq P] (calls : List (Call D E)) (ev : D → List (P × Option V)) (cur : Option V) (p : P) :
    buildAsserts (calls.foldl add new) = true ∧ columnAsserts cur (columnOf ev (keyframes calls) p) = true := by
  obtain ⟨n1, n2, ⟨k0, hk0, z0⟩, ⟨k1, hk1, z1⟩⟩ := C34_normalised calls
  constructor
  · refine decide_eq_true ?_
    have hlen : 2 ≤ (keyframes calls).length := by
      match h : keyframes calls with
      | [] => rw [h] at hk0; simp at hk0
      | [x] =>
        rw [h] at hk0 hk1
        simp at hk0 hk1
        subst hk0
        rw [← hk1, z0] at z1
        norm_num at z1
      | x :: y :: l => simp
    unfold keyframes build at hlen
    rwa [List.length_mergeSort] at hlen
  · have hcol : (columnOf ev (keyframes calls) p).map (·.1) = (keyframes calls).map (·.time) := by
      unfold columnOf; simp
    have hh : (columnOf ev (keyframes calls) p).head?.map (·.1) = some 0 := by
      unfold columnOf
      rw [List.head?_map, hk0]
      simp [z0]
    have hl : (columnOf ev (keyframes calls) p).getLast?.map (·.1) = some 1 := by
      unfold columnOf
      rw [List.getLast?_map, hk1]
      simp [z1]
    unfold columnAsserts
    rw [decide_eq_true hh, decide_eq_true hl, Bool.and_true, Bool.true_and, Bool.and_eq_true]
    constructor
    · have hf := fillEnds_fst cur (columnOf ev (keyframes calls) p)
      cases he : fillEnds cur (columnOf ev (keyframes calls) p) with
      | nil => rfl
      | cons x r =>
        obtain ⟨t, c⟩ := x
        apply mid_ok
        have : (t :: r.map (·.1)) = (keyframes calls).map (·.time) := by
          rw [← hcol, ← hf, he]; rfl
        rw [this]
        exact n1.imp (by intro a b h; linarith)
    · rw [List.all_eq_true]
      intro x hx
      have : x.1 ∈ (keyframes calls).map (·.time) := by rw [← hcol]; exact List.mem_map_of_mem hx
      obtain ⟨k, hk, e⟩ := List.mem_map.mp this
      rw [← e]
      exact decide_eq_true (n2 k hk)
end
end Flair.Props
