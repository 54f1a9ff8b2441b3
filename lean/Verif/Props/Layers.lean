import Verif.Proofs.Layers
import Mathlib.Data.List.Nodup
/-!
# C01, C02 : cascade layers

`ds` is any history of layer declarations; the code sees the dotted text of each.
-/
namespace Flair.Props
open Flair.Spec Flair.Layers

/-- C01.  Whatever the declaration history, the code never panics on it, and for any two declared
layers the code's priorities compare exactly as the CSS layer order `Below` says; un-layered styles
(empty name) are above every layer. -/
theorem C01_layer_order (ds : List Path) (hds : ∀ d ∈ ds, d.WF) :
    ∃ h, defineAll (ds.map Path.dotted) = some h ∧
      (∀ x y, Declared ds x → Declared ds y → ∃ i j,
        priority h x.dotted = some i ∧ priority h y.dotted = some j ∧
        (i < j ↔ Below ds x y) ∧ (i = j ↔ x = y)) ∧
      (∀ x, Declared ds x → ∃ i top, priority h x.dotted = some i ∧ priority h [] = some top ∧ i < top) := by
  refine ⟨_, defineAll_eq_run ds hds, ?_, ?_⟩
  · intro x y hx hy
    have inv := run_inv ds hds
    have hxm := (inv.mem x).mpr hx
    have hym := (inv.mem y).mpr hy
    have prio : ∀ z, z ∈ run ds →
        priority ((run ds).map Path.dotted) z.dotted = some ((run ds).idxOf z) := by
      intro z hz
      have hzWF := inv.wf z hz
      unfold priority position
      rw [if_neg (dotted_ne_nil z hzWF), if_pos, idxOf_map_dotted _ _ inv.wf hzWF]
      simpa using (mem_map_dotted _ _ inv.wf hzWF).mpr hz
    refine ⟨_, _, prio x hxm, prio y hym, ?_, ?_⟩
    · have hlx := List.idxOf_lt_length_of_mem hxm
      have hly := List.idxOf_lt_length_of_mem hym
      have gx : (run ds)[(run ds).idxOf x] = x := List.getElem_idxOf hlx
      have gy : (run ds)[(run ds).idxOf y] = y := List.getElem_idxOf hly
      have hs := List.pairwise_iff_getElem.mp inv.sorted
      constructor
      · intro h
        have := hs _ _ hlx hly h
        rwa [gx, gy] at this
      · intro h
        rcases Nat.lt_trichotomy ((run ds).idxOf x) ((run ds).idxOf y) with h' | h' | h'
        · exact h'
        · exfalso
          have : x = y := by rw [← gx, ← gy]; simp [h']
          subst this
          exact Below_irrefl ds x h
        · exfalso
          have := hs _ _ hly hlx h'
          rw [gx, gy] at this
          exact Below_asymm h this
    · constructor
      · intro h
        have hlx := List.idxOf_lt_length_of_mem hxm
        have hly := List.idxOf_lt_length_of_mem hym
        have gx : (run ds)[(run ds).idxOf x] = x := List.getElem_idxOf hlx
        have gy : (run ds)[(run ds).idxOf y] = y := List.getElem_idxOf hly
        rw [← gx, ← gy]; simp [h]
      · intro h; rw [h]
  · intro x hx
    have inv := run_inv ds hds
    have hxm := (inv.mem x).mpr hx
    have hxWF := inv.wf x hxm
    refine ⟨(run ds).idxOf x, (run ds).length, ?_, ?_, List.idxOf_lt_length_of_mem hxm⟩
    · unfold priority position
      rw [if_neg (dotted_ne_nil x hxWF), if_pos, idxOf_map_dotted _ _ inv.wf hxWF]
      simpa using (mem_map_dotted _ _ inv.wf hxWF).mpr hxm
    · simp [priority]

/-- C01, totality of the order: the specification leaves no two declared layers incomparable. -/
theorem C01_layer_order_total (ds : List Path) (hds : ∀ d ∈ ds, d.WF) (x y : Path)
    (hx : Declared ds x) (hy : Declared ds y) (hne : x ≠ y) : Below ds x y ∨ Below ds y x := by
  obtain ⟨h, _, hord, _⟩ := C01_layer_order ds hds
  obtain ⟨i, j, hi, hj, hlt, heq⟩ := hord x y hx hy
  obtain ⟨j', i', hj', hi', hlt', _⟩ := hord y x hy hx
  rw [hi] at hi'; rw [hj] at hj'
  cases hi'; cases hj'
  rcases Nat.lt_trichotomy i j with h | h | h
  · exact Or.inl (hlt.mp h)
  · exact absurd (heq.mp h) hne
  · exact Or.inr (hlt'.mp h)

section
/-- witnesses: names used in the examples. -/
private def a : List Char := ['a']
private def b : List Char := ['b']
private def c : List Char := ['c']

/-- `@layer a; @layer b; @layer a.c` : a concrete history meeting the hypotheses, where the nested
layer declared last still loses to both outer layers. -/
example : (∀ d ∈ [[a], [b], [a, c]], Path.WF d) ∧
    Declared [[a], [b], [a, c]] [a, c] ∧ Declared [[a], [b], [a, c]] [b] ∧
    Below [[a], [b], [a, c]] [a, c] [b] ∧ Below [[a], [b], [a, c]] [a, c] [a] := by
  refine ⟨by decide, ⟨by decide, [a, c], by decide, by decide⟩,
    ⟨by decide, [b], by decide, by decide⟩, Or.inr ⟨[], a, b, [c], [], rfl, rfl, by decide, ?_⟩,
    Or.inl ⟨by decide, by decide⟩⟩
  exact ⟨[[a]], by decide, ⟨[a], by decide, by decide⟩, by decide⟩
end

/-- C02.  One more declaration `d` after any history: the existing layers keep their relative order
(the old list is a sub-list of the new one), nothing happens when `d` was declared already, and the
new hierarchy lists exactly the declared layers (with all their ancestors), each once. -/
theorem C02_define_monotone (ds : List Path) (d : Path) (hds : ∀ x ∈ ds, x.WF) (hd : d.WF) :
    ∃ h h', defineAll (ds.map Path.dotted) = some h ∧ defineLayer h d.dotted = some h' ∧
      h.Sublist h' ∧ (Declared ds d → h' = h) ∧ h'.Nodup ∧
      (∀ x : Path, x.WF → (x.dotted ∈ h' ↔ Declared (ds ++ [d]) x)) := by
  have inv := run_inv ds hds
  have inv' := step_inv inv hd
  have hds' : ∀ x ∈ ds ++ [d], x.WF := by
    intro x hx; simp at hx; rcases hx with hx | hx
    · exact hds x hx
    · exact hx ▸ hd
  refine ⟨_, _, defineAll_eq_run ds hds,
    defineLayer_dotted d.length d (run ds) rfl hd inv.wf inv.closed, ?_, ?_, ?_, ?_⟩
  · apply List.Sublist.map
    have key : ∀ (qs : List Path) (L : List Path), L.Sublist (qs.foldl def1 L) := by
      intro qs
      induction qs with
      | nil => intro L; exact List.Sublist.refl L
      | cons q qs ih =>
        intro L
        rw [List.foldl_cons]
        refine List.Sublist.trans ?_ (ih _)
        unfold def1
        split
        · exact List.Sublist.refl L
        · split
          · exact List.sublist_append_left L [q]
          · conv => lhs; rw [← List.take_append_drop (L.idxOf q.dropLast) L]
            exact List.Sublist.append (List.Sublist.refl _) (List.sublist_cons_self _ _)
    exact key _ _
  · intro hdecl
    congr 1
    apply foldl_def1_of_mem
    intro q hq
    have hdm := (inv.mem d).mpr hdecl
    simp only [prefixes, List.mem_append, List.mem_singleton] at hq
    rcases hq with hq | hq
    · have := (mem_properPrefixes' d q).mp hq
      exact inv.closed d hdm q this.1 this.2.1
    · exact hq ▸ hdm
  · have hnd := inv'.nodup
    have hwf := inv'.wf
    exact List.Nodup.map_on (fun x hx y hy h => dotted_inj x y (hwf x hx) (hwf y hy) h) hnd
  · intro x hx
    rw [mem_map_dotted _ _ inv'.wf hx, inv'.mem]

section
private def a' : List Char := ['a']
private def b' : List Char := ['b']
/-- declaring `a.b` in an empty hierarchy creates `a` too, with `a.b` below it. -/
example : Path.WF [a', b'] ∧
    (defineLayer [] (Path.dotted [a', b']) = some [['a', '.', 'b'], ['a']]) := by
  constructor
  · decide +revert
  · have := defineLayer_dotted 2 [a', b'] [] rfl (by decide) (by simp) (by simp [Closed])
    rw [List.map_nil] at this
    rw [this]; decide
end

end Flair.Props
