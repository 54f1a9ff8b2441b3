import Verif.Model.Tree
import Verif.Tactics
import Mathlib.Data.List.Nodup
import Mathlib.Data.List.Perm.Subperm
namespace Flair.Tree
variable {E : Type} {f : Forest E}

theorem Anc.trans' {a b c : E} (h1 : f.Anc a b) (h2 : f.Anc b c) : f.Anc a c := by
  induction h2 with
  | child e h => exact .step b e h1 h
  | step p e _ h ih => exact .step p e ih h

/-- An ancestor is the parent or an ancestor of the parent. -/
theorem Anc_iff_parent {a e : E} : f.Anc a e ↔ ∃ p, f.parent e = some p ∧ (p = a ∨ f.Anc a p) := by
  constructor
  · intro h
    cases h with
    | child _ h => exact ⟨a, h, Or.inl rfl⟩
    | step p _ h h' => exact ⟨p, h', Or.inr h⟩
  · rintro ⟨p, h, rfl | h'⟩
    · exact .child e h
    · exact .step p e h' h

theorem ancestorsN_sound (n : Nat) (e a : E) : a ∈ ancestorsN f n e → f.Anc a e := by
  induction n generalizing e with
  | zero => simp [ancestorsN]
  | succ n ih =>
    unfold ancestorsN
    cases h : f.parent e with
    | none => simp
    | some p =>
      simp only [List.mem_cons]
      rintro (rfl | h')
      · exact .child e h
      · exact .step p e (ih p h') h

theorem ancestorsN_nodup (wf : f.WF) (n : Nat) (e : E) : (ancestorsN f n e).Nodup := by
  induction n generalizing e with
  | zero => simp [ancestorsN]
  | succ n ih =>
    unfold ancestorsN
    cases h : f.parent e with
    | none => simp
    | some p =>
      simp only [List.nodup_cons]
      exact ⟨fun h' => wf.acyclic p (ancestorsN_sound n p p h'), ih p⟩

theorem ancestorsN_subset (wf : f.WF) (n : Nat) (e : E) : ∀ a ∈ ancestorsN f n e, a ∈ f.nodes := by
  induction n generalizing e with
  | zero => simp [ancestorsN]
  | succ n ih =>
    unfold ancestorsN
    cases h : f.parent e with
    | none => simp
    | some p =>
      simp only [List.mem_cons]
      rintro a (rfl | h')
      · exact (wf.parent_mem _ _ h).1
      · exact ih p a h'

theorem ancestorsN_complete (n : Nat) (e : E) (h : (ancestorsN f n e).length < n) (a : E)
    (ha : f.Anc a e) : a ∈ ancestorsN f n e := by
  induction n generalizing e with
  | zero => simp [ancestorsN] at h
  | succ n ih =>
    unfold ancestorsN at h ⊢
    obtain ⟨p, hp, hpa⟩ := Anc_iff_parent.mp ha
    simp only [hp] at h ⊢
    rcases hpa with rfl | hpa
    · simp
    · exact List.mem_cons_of_mem _ (ih p (by simpa using h) hpa)

theorem nodup_length_le {l m : List E} (h : l.Nodup) (hs : ∀ a ∈ l, a ∈ m) : l.length ≤ m.length :=
  (List.subperm_of_subset h hs).length_le

theorem ancestors_length (wf : f.WF) (n : Nat) (e : E) :
    (ancestorsN f n e).length ≤ f.nodes.length :=
  nodup_length_le (ancestorsN_nodup wf n e) (ancestorsN_subset wf n e)

theorem mem_ancestors (wf : f.WF) (e a : E) : a ∈ ancestors f e ↔ f.Anc a e :=
  ⟨ancestorsN_sound _ e a,
   ancestorsN_complete _ e (Nat.lt_succ_of_le (ancestors_length wf _ e)) a⟩

/-- More calls change nothing once the iterator is exhausted. -/
theorem ancestorsN_stable (n m : Nat) (e : E) (h : (ancestorsN f n e).length < n) (hm : n ≤ m) :
    ancestorsN f m e = ancestorsN f n e := by
  induction n generalizing m e with
  | zero => simp at h
  | succ n ih =>
    obtain ⟨m, rfl⟩ : ∃ k, m = k + 1 := ⟨m - 1, by omega⟩
    unfold ancestorsN at h ⊢
    cases hp : f.parent e with
    | none => rfl
    | some p =>
      simp only [hp] at h
      simp only
      rw [ih m p (by simpa using h) (by omega)]

/-- Unfolding of the full ancestor list. -/
theorem ancestors_eq (wf : f.WF) (e : E) :
    ancestors f e = match f.parent e with
      | none => []
      | some p => p :: ancestors f p := by
  have h1 : ancestors f e = ancestorsN f (f.nodes.length + 2) e :=
    (ancestorsN_stable _ _ e (Nat.lt_succ_of_le (ancestors_length wf _ e)) (by omega)).symm
  rw [h1]
  rfl

/-! ## Breadth first traversal -/

/-- The loop invariant: `vis` has been yielded, `q` is the queue. -/
structure BfsInv (f : Forest E) (root : E) (vis q : List (E × E)) : Prop where
  nodup : ((vis ++ q).map Prod.snd).Nodup
  par : ∀ p e, (p, e) ∈ vis ++ q → f.parent e = some p ∧ f.Anc root e ∧ (p = root ∨ p ∈ vis.map Prod.snd)
  first : ∀ l1 p e l2, vis = l1 ++ (p, e) :: l2 → p = root ∨ p ∈ l1.map Prod.snd
  closed : ∀ p c, (p = root ∨ p ∈ vis.map Prod.snd) → f.parent c = some p → (p, c) ∈ vis ++ q

theorem bfsInv_new (wf : f.WF) (root : E) : BfsInv f root [] (bfsNew f root) := by
  refine ⟨?_, ?_, ?_, ?_⟩
  · have : ((f.children root).map (fun c => (root, c))).map Prod.snd = f.children root := by
      simp [List.map_map, Function.comp_def]
    simpa [bfsNew, Function.comp_def] using wf.nodup root
  · intro p e h
    simp only [bfsNew, List.nil_append, List.mem_map, Prod.mk.injEq] at h
    obtain ⟨c, hc, rfl, rfl⟩ := h
    have := (wf.mem_iff _ _).mp hc
    exact ⟨this, .child _ this, Or.inl rfl⟩
  · intro l1 p e l2 h; simp at h
  · intro p c h hp
    simp at h; subst h
    simp [bfsNew, (wf.mem_iff _ _).mpr hp]

theorem bfsInv_step (wf : f.WF) {root p e : E} {vis q : List (E × E)}
    (inv : BfsInv f root vis ((p, e) :: q)) :
    BfsInv f root (vis ++ [(p, e)]) (q ++ (f.children e).map (fun c => (e, c))) := by
  have hall : vis ++ [(p, e)] ++ (q ++ (f.children e).map (fun c => (e, c)))
      = (vis ++ (p, e) :: q) ++ (f.children e).map (fun c => (e, c)) := by simp
  have he : (p, e) ∈ vis ++ (p, e) :: q := by simp
  obtain ⟨hpe, hde, hpv⟩ := inv.par p e he
  have hne : e ∉ vis.map Prod.snd := by
    intro hv
    have := inv.nodup
    rw [List.map_append, List.map_cons] at this
    exact (List.disjoint_of_nodup_append this) hv (by simp)
  have hnr : e ≠ root := by
    rintro rfl; exact wf.acyclic e hde
  refine ⟨?_, ?_, ?_, ?_⟩
  · rw [hall, List.map_append]
    refine List.Nodup.append inv.nodup ?_ ?_
    · simpa [Function.comp_def] using wf.nodup e
    · intro c hc hc'
      simp only [List.map_map, List.mem_map, Function.comp_def] at hc'
      obtain ⟨c', hc', rfl⟩ := hc'
      have hpar := (wf.mem_iff _ _).mp hc'
      obtain ⟨⟨p', c''⟩, hm, hcc⟩ := List.mem_map.mp hc
      simp only at hcc; subst hcc
      obtain ⟨h1, _, h3⟩ := inv.par p' _ hm
      rw [hpar] at h1; cases h1
      rcases h3 with h3 | h3
      · exact hnr h3
      · exact hne h3
  · intro p' c h
    rw [hall] at h
    rcases List.mem_append.mp h with h | h
    · obtain ⟨h1, h2, h3⟩ := inv.par p' c h
      refine ⟨h1, h2, ?_⟩
      rcases h3 with h3 | h3
      · exact Or.inl h3
      · exact Or.inr (by simp only [List.map_append, List.mem_append]; exact Or.inl h3)
    · simp only [List.mem_map, Prod.mk.injEq] at h
      obtain ⟨c', hc', rfl, rfl⟩ := h
      have hpar := (wf.mem_iff _ _).mp hc'
      exact ⟨hpar, .step _ _ hde hpar, Or.inr (by simp)⟩
  · intro l1 p' e' l2 h
    rcases List.append_eq_append_iff.mp h with ⟨m, h1, h2⟩ | ⟨m, h1, h2⟩
    · cases m with
      | nil =>
        simp only [List.nil_append] at h2
        cases h2
        simp only [List.append_nil] at h1
        subst h1
        exact hpv
      | cons x m => simp at h2
    · cases m with
      | nil =>
        simp only [List.nil_append] at h2
        simp only [List.append_nil] at h1
        cases h2; subst h1; exact hpv
      | cons x m =>
        simp only [List.cons_append, List.cons.injEq] at h2
        obtain ⟨rfl, _⟩ := h2
        exact inv.first l1 p' e' m h1
  · intro p' c h hp
    rw [hall]
    have h' : (p' = root ∨ p' ∈ vis.map Prod.snd) ∨ p' = e := by
      simp only [List.map_append, List.mem_append, List.map_cons, List.map_nil, List.mem_singleton] at h
      tauto
    rcases h' with h' | rfl
    · exact List.mem_append_left _ (inv.closed p' c h' hp)
    · exact List.mem_append_right _ (by simp [(wf.mem_iff _ _).mpr hp])

theorem bfsInv_subset (wf : f.WF) {root : E} {vis q : List (E × E)} (inv : BfsInv f root vis q) :
    (vis ++ q).length ≤ f.nodes.length := by
  have := nodup_length_le inv.nodup (m := f.nodes) (by
    intro a ha
    obtain ⟨⟨p, e⟩, h, rfl⟩ := List.mem_map.mp ha
    exact (wf.parent_mem _ _ (inv.par p e h).1).2)
  simpa using this

theorem bfsCollect_inv (wf : f.WF) (root : E) (n : Nat) :
    ∀ vis q, BfsInv f root vis q → f.nodes.length < vis.length + n →
      ∃ out, bfsCollect f n q = some out ∧ BfsInv f root (vis ++ out) [] := by
  induction n with
  | zero =>
    intro vis q inv h
    have := bfsInv_subset wf inv
    simp at this; omega
  | succ n ih =>
    intro vis q inv h
    cases q with
    | nil => exact ⟨[], by simp [bfsCollect, bfsNext], by simpa using inv⟩
    | cons x q =>
      obtain ⟨p, e⟩ := x
      obtain ⟨out, h1, h2⟩ := ih _ _ (bfsInv_step wf inv) (by simp; omega)
      exact ⟨(p, e) :: out, by simp [bfsCollect, bfsNext, h1], by simpa using h2⟩

theorem bfsCollect_mono (n m : Nat) (q : List (E × E)) (out : List (E × E)) (hnm : n ≤ m)
    (h : bfsCollect f n q = some out) : bfsCollect f m q = some out := by
  induction n generalizing m q out with
  | zero => simp [bfsCollect] at h
  | succ n ih =>
    obtain ⟨m, rfl⟩ : ∃ k, m = k + 1 := ⟨m - 1, by omega⟩
    unfold bfsCollect at h ⊢
    cases hb : bfsNext f q with
    | none => rw [hb] at h; exact h
    | some x =>
      rw [hb] at h
      simp only [Option.map_eq_some_iff] at h ⊢
      obtain ⟨o, ho, rfl⟩ := h
      exact ⟨o, ih m _ o (by omega) ho, rfl⟩

theorem BfsInv_done_mem {root : E} {out : List (E × E)} (inv : BfsInv f root out [])
    (p e : E) : (p, e) ∈ out ↔ f.Anc root e ∧ f.parent e = some p := by
  have hall : ∀ e, f.Anc root e → e ∈ out.map Prod.snd := by
    intro e h
    induction h with
    | child e h =>
      have := inv.closed root e (Or.inl rfl) h
      simp only [List.append_nil] at this
      exact List.mem_map.mpr ⟨_, this, rfl⟩
    | step p e _ h ih =>
      have := inv.closed p e (Or.inr ih) h
      simp only [List.append_nil] at this
      exact List.mem_map.mpr ⟨_, this, rfl⟩
  constructor
  · intro h
    obtain ⟨h1, h2, _⟩ := inv.par p e (by simpa using h)
    exact ⟨h2, h1⟩
  · rintro ⟨h1, h2⟩
    obtain ⟨⟨p', e'⟩, hm, hee⟩ := List.mem_map.mp (hall e h1)
    simp only at hee; subst hee
    have := (inv.par p' _ (by simpa using hm)).1
    rw [h2] at this; cases this
    exact hm

end Flair.Tree
