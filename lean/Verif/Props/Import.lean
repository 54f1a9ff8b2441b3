import Verif.Props.Sheet
/-!
# C10 : layer order of an imported sheet

The full property is false for the code (`C10_import_reorders_layers`): the `@layer` statements of
the imported sheet are lost, its layers are re-declared in the order of its rules.
-/
namespace Flair.Props
open Flair.Spec Flair.Sheet Flair.Layers Flair.Vars Flair.Values
set_option linter.unusedSectionVars false
variable {S M C N T V X Y : Type} [DecidableEq N] [DecidableEq V]
variable (names : C → Option Nat) (typeOk : Nat → V → Bool) (spec : S → Nat)
  (ph : V → PropertyValue V)

private theorem seen_nil {a b : Path} : ¬ SeenBefore [] a b := by
  rintro ⟨pre, h, ⟨d, hd, _⟩, _⟩
  rw [List.prefix_nil] at h; subst h; cases hd

private theorem seen_cons {d : Path} {l : List Path} {a b : Path} :
    SeenBefore (d :: l) a b ↔ ¬ b <+: d ∧ (a <+: d ∨ SeenBefore l a b) := by
  constructor
  · rintro ⟨pre, h, ⟨e, he, hae⟩, hb⟩
    cases pre with
    | nil => cases he
    | cons x pre =>
      obtain ⟨rfl, h'⟩ := List.cons_prefix_cons.mp h
      refine ⟨hb x (by simp), ?_⟩
      simp only [List.mem_cons] at he
      rcases he with rfl | he
      · exact Or.inl hae
      · exact Or.inr ⟨pre, h', ⟨e, he, hae⟩, fun y hy => hb y (by simp [hy])⟩
  · rintro ⟨h1, h2 | ⟨pre, h, ⟨e, he, hae⟩, hb⟩⟩
    · exact ⟨[d], by simp [List.cons_prefix_cons], ⟨d, by simp, h2⟩, by simpa using h1⟩
    · refine ⟨d :: pre, List.cons_prefix_cons.mpr ⟨rfl, h⟩, ⟨e, by simp [he], hae⟩, ?_⟩
      intro y hy
      simp only [List.mem_cons] at hy
      rcases hy with rfl | hy
      · exact h1
      · exact hb y hy

private theorem seen_skip {l m : List Path} {a b : Path} (h : ∀ d ∈ l, ¬ a <+: d ∧ ¬ b <+: d) :
    SeenBefore (l ++ m) a b ↔ SeenBefore m a b := by
  induction l with
  | nil => rfl
  | cons d l ih =>
    rw [List.cons_append, seen_cons, ih (fun x hx => h x (by simp [hx]))]
    have := h d (by simp)
    tauto

private theorem seen_filter {l : List Path} {a b : Path} (ha : a ≠ []) (hb : b ≠ []) :
    SeenBefore (l.filter (fun p => p ≠ [])) a b ↔ SeenBefore l a b := by
  induction l with
  | nil => rfl
  | cons d l ih =>
    by_cases hd : d = []
    · subst hd
      rw [List.filter_cons_of_neg (by simp), ih, seen_cons, List.prefix_nil, List.prefix_nil]
      tauto
    · rw [List.filter_cons_of_pos (by simpa using hd), seen_cons, seen_cons, ih]

private theorem seen_map {X : Path} {l : List Path} {a b : Path} :
    SeenBefore (l.map (X ++ ·)) (X ++ a) (X ++ b) ↔ SeenBefore l a b := by
  induction l with
  | nil => exact ⟨fun h => absurd h seen_nil, fun h => absurd h seen_nil⟩
  | cons d l ih =>
    rw [List.map_cons, seen_cons, seen_cons, ih, List.prefix_append_right_inj,
      List.prefix_append_right_inj]

private theorem below_nested {X : Path} {ds1 es : List Path} {p q : Path}
    (hp : Declared (es.filter (fun p => p ≠ [])) p) (hq : Declared (es.filter (fun p => p ≠ [])) q)
    (hfresh : ∀ d ∈ ds1, ∀ e ∈ es, ∀ c, [c] <+: e → ¬ (X ++ [c]) <+: d) :
    Below (ds1 ++ (es.map (X ++ ·)).filter (fun p => p ≠ [])) (X ++ p) (X ++ q) ↔
      Below (es.filter (fun p => p ≠ [])) p q := by
  have first : ∀ {p : Path}, Declared (es.filter (fun p => p ≠ [])) p →
      ∀ r : Path, r ≠ [] → r <+: p → ∀ d ∈ ds1, ¬ (X ++ r) <+: d := by
    rintro p ⟨_, e, he, hpe⟩ r hr hrp d hd h
    obtain ⟨c, r', rfl⟩ := List.exists_cons_of_ne_nil hr
    have h1 : [c] <+: c :: r' := by simp [List.cons_prefix_cons]
    have he' := (List.mem_filter.mp he).1
    refine hfresh d hd e he' c ((h1.trans hrp).trans hpe) ?_
    exact ((List.prefix_append_right_inj X).mpr h1).trans h
  unfold Below
  apply or_congr
  · rw [List.prefix_append_right_inj, Ne, List.append_right_inj]
  · constructor
    · rintro ⟨P, a, b, xs, ys, h1, h2, hab, h3⟩
      have hXP : X <+: P := by
        rcases Nat.lt_or_ge P.length X.length with hl | hl
        · exfalso
          have hP : P <+: X := List.prefix_of_prefix_length_le (h1 ▸ List.prefix_append P (a :: xs))
            (List.prefix_append X p) (by omega)
          obtain ⟨t, rfl⟩ := hP
          simp only [List.append_assoc, List.append_right_inj] at h1 h2
          cases t with
          | nil => simp at hl
          | cons c t =>
            simp only [List.cons_append, List.cons.injEq] at h1 h2
            exact hab (h1.1.symm.trans h2.1)
        · exact List.prefix_of_prefix_length_le (List.prefix_append X p)
            (h1 ▸ List.prefix_append P _) hl
      obtain ⟨P', rfl⟩ := hXP
      simp only [List.append_assoc, List.append_right_inj] at h1 h2 h3
      refine ⟨P', a, b, xs, ys, h1, h2, hab, ?_⟩
      rw [seen_skip, seen_filter (by simp) (by simp), seen_map] at h3
      · rw [seen_filter (by simp) (by simp)]; exact h3
      · intro d hd
        exact ⟨first hp _ (by simp) (by rw [h1]; exact ⟨xs, by simp⟩) d hd,
          first hq _ (by simp) (by rw [h2]; exact ⟨ys, by simp⟩) d hd⟩
    · rintro ⟨P', a, b, xs, ys, h1, h2, hab, h3⟩
      refine ⟨X ++ P', a, b, xs, ys, by rw [h1]; simp, by rw [h2]; simp, hab, ?_⟩
      simp only [List.append_assoc]
      rw [seen_skip, seen_filter (by simp) (by simp), seen_map]
      · rw [seen_filter (by simp) (by simp)] at h3; exact h3
      · intro d hd
        exact ⟨first hp _ (by simp) (by rw [h1]; exact ⟨xs, by simp⟩) d hd,
          first hq _ (by simp) (by rw [h2]; exact ⟨ys, by simp⟩) d hd⟩

/-- The source has no `@layer a, b;` statements. -/
def NoLayerStatement (is : List (Item S M C N T V X Y)) : Prop := ∀ i ∈ is, ∃ r, i = .rule r

private theorem names_of_rules {is : List (Item S M C N T V X Y)} (h : NoLayerStatement is) :
    layerNames is = (rulesOf is).flatMap fun r => r.selectors.map (·.layer) := by
  induction is with
  | nil => rfl
  | cons i is ih =>
    obtain ⟨r, rfl⟩ := h i (by simp)
    simp [layerNames, rulesOf, ih (fun x hx => h x (by simp [hx]))]

private theorem names_inLayer (x : Name) (rs : List (SrcRule S M C N T V X Y)) :
    (rs.flatMap fun r => (inLayer x r).selectors.map (·.layer)) =
      (rs.flatMap fun r => r.selectors.map (·.layer)).map (nestName x) := by
  rw [List.map_flatMap]
  simp [inLayer, Function.comp_def]

private theorem nest_dotted {A p : Path} (hA : A = [] ∨ A.WF) (hp : p = [] ∨ p.WF) :
    nestName A.dotted p.dotted = (A ++ p).dotted ∧ ((A ++ p) = [] ∨ (A ++ p).WF) := by
  unfold nestName
  rcases hA with rfl | hA
  · simp only [Path.dotted, if_true, List.nil_append]; exact ⟨trivial, hp⟩
  · rw [if_neg (dotted_ne_nil A hA)]
    rcases hp with rfl | hp
    · simp only [Path.dotted, if_true, List.append_nil]; exact ⟨trivial, Or.inr hA⟩
    · rw [if_neg (dotted_ne_nil p hp), dotted_append A hA.1 p hp.1]
      refine ⟨by simp, Or.inr ⟨by simp [hA.1], ?_⟩⟩
      intro c hc
      rcases List.mem_append.mp hc with hc | hc
      · exact hA.2 c hc
      · exact hp.2 c hc

/-- `ns` all name layers (or nothing) -/
private theorem paths_of_history {ns : List Name} {ds : List Path}
    (h : List.Forall₂ (fun (t : List Char) (p : Path) => p.WF ∧ t = p.dotted)
      (ns.filter (fun t => t ≠ [])) ds) :
    ∃ es : List Path, ns = es.map Path.dotted ∧ (∀ e ∈ es, e = [] ∨ e.WF) ∧
      ds = es.filter (fun p => p ≠ []) := by
  induction ns generalizing ds with
  | nil => cases h; exact ⟨[], rfl, by simp, rfl⟩
  | cons n ns ih =>
    by_cases hn : n = []
    · subst hn
      rw [List.filter_cons_of_neg (by simp)] at h
      obtain ⟨es, e1, e2, e3⟩ := ih h
      exact ⟨[] :: es, by simp [Path.dotted, e1], by simpa using e2, by simp [e3]⟩
    · rw [List.filter_cons_of_pos (by simpa using hn)] at h
      cases h with
      | @cons _ p _ ds' h1 h2 =>
        obtain ⟨es, e1, e2, e3⟩ := ih h2
        refine ⟨p :: es, by simp [h1.2, e1], ?_, ?_⟩
        · intro e he
          simp only [List.mem_cons] at he
          rcases he with rfl | he
          · exact Or.inr h1.1
          · exact e2 e he
        · rw [List.filter_cons_of_pos (by simpa using h1.1.1), e3]

private theorem history_of_paths {es : List Path} (h : ∀ e ∈ es, e = [] ∨ e.WF) :
    List.Forall₂ (fun (t : List Char) (p : Path) => p.WF ∧ t = p.dotted)
      ((es.map Path.dotted).filter (fun t => t ≠ [])) (es.filter (fun p => p ≠ [])) := by
  induction es with
  | nil => exact .nil
  | cons e es ih =>
    have ih := ih (fun x hx => h x (by simp [hx]))
    rcases h e (by simp) with rfl | he
    · simpa [Path.dotted] using ih
    · rw [List.map_cons, List.filter_cons_of_pos (by simpa using dotted_ne_nil e he),
        List.filter_cons_of_pos (by simpa using he.1)]
      exact .cons ⟨he, rfl⟩ ih

/-- C10, proved part: the imported sheet has no `@layer` statement, and its top level layers are new
at the place of import (inside the layer `A` of the import, `A = []` for none).  Then two layers of
the imported sheet compare after the import as they do in the sheet on its own.
Missing: imported sheets with `@layer` statements, for which the property is false
(`C10_import_reorders_layers`). -/
theorem C10_import_layer_order_partial (is1 is2 : List (Item S M C N T V X Y))
    (A : Path) (hA : A = [] ∨ A.WF) (hph : PhDone ph)
    (hsame : ∀ r ∈ rulesOf is2, SameLayer r) (hno : NoLayerStatement is2)
    (ds1 ds2 : List Path) (h1 : LayerHistory is1 ds1) (h2 : LayerHistory is2 ds2)
    (hfresh : ∀ d ∈ ds1, ∀ e ∈ ds2, ∀ c, [c] <+: e → ¬ (A ++ [c]) <+: d)
    (b1 b2 : Builder S M C N T V X Y)
    (hb1 : (Builder.new : Builder S M C N T V X Y).addItems is1 = some b1)
    (hb2 : (Builder.new : Builder S M C N T V X Y).addItems is2 = some b2)
    (o : StyleSheet S M C N T V X Y) (ho : b2.build names typeOk spec ph = some (.ok o)) :
    ∃ b', b1.embed o (if A = [] then none else some A.dotted) = some b' ∧
      ∀ p q, Declared ds2 p → Declared ds2 q → ∃ i j i' j',
        priority b2.layers p.dotted = some i ∧ priority b2.layers q.dotted = some j ∧
        priority b'.layers (A ++ p).dotted = some i' ∧ priority b'.layers (A ++ q).dotted = some j' ∧
        (i < j ↔ i' < j') ∧ (i = j ↔ i' = j') := by
  obtain ⟨b1', hb1', hr1⟩ := realises_source names ph h1
  rw [hb1] at hb1'; cases hb1'
  obtain ⟨b2', hb2', hr2⟩ := realises_source names ph h2
  rw [hb2] at hb2'; cases hb2'
  have hx : (if A = [] then none else some A.dotted : Option Name).getD [] = A.dotted := by
    split
    · rename_i h; subst h; rfl
    · rfl
  obtain ⟨es, e1, e2, e3⟩ := paths_of_history h2
  rw [names_of_rules hno] at e1
  have hd' : LayerHistory ((rulesOf is2).map fun r => Item.rule (inLayer A.dotted r))
      ((es.map (A ++ ·)).filter (fun p => p ≠ [])) := by
    unfold LayerHistory
    rw [layerNames_map_rule, names_inLayer, e1]
    have : (es.map Path.dotted).map (nestName A.dotted) = (es.map (A ++ ·)).map Path.dotted := by
      rw [List.map_map, List.map_map]
      apply List.map_congr_left
      intro e he
      exact (nest_dotted hA (e2 e he)).1
    rw [this]
    apply history_of_paths
    intro e he
    obtain ⟨p, hp, rfl⟩ := List.mem_map.mp he
    exact (nest_dotted hA (e2 p hp)).2
  obtain ⟨b', hb', hr'⟩ := hr1.embed hph hr2 ho
    (layer := if A = [] then none else some A.dotted) (by
      split
      · simp
      · rename_i h
        rcases hA with hA | hA
        · exact absurd hA h
        · simpa using dotted_ne_nil A hA) hsame (by rw [hx]; exact hd')
  refine ⟨b', hb', ?_⟩
  intro p q hp hq
  have hfresh' : ∀ d ∈ ds1, ∀ e ∈ es, ∀ c, [c] <+: e → ¬ (A ++ [c]) <+: d := by
    intro d hd e he c hc
    refine hfresh d hd e ?_ c hc
    rw [e3, List.mem_filter]
    refine ⟨he, ?_⟩
    have : e ≠ [] := by rintro rfl; simp at hc
    simpa using this
  subst e3
  have hdecl : ∀ {p : Path}, Declared (es.filter (fun p => p ≠ [])) p →
      Declared (ds1 ++ (es.map (A ++ ·)).filter (fun p => p ≠ [])) (A ++ p) := by
    rintro p ⟨h0, d, hd, hpd⟩
    refine ⟨by simp [h0], A ++ d, ?_, (List.prefix_append_right_inj A).mpr hpd⟩
    have hd' := List.mem_filter.mp hd
    refine List.mem_append.mpr (Or.inr (List.mem_filter.mpr ⟨List.mem_map_of_mem hd'.1, ?_⟩))
    have : d ≠ [] := by simpa using hd'.2
    simp [this]
  obtain ⟨l1, l2⟩ := prio_lt_iff hr2.wf (Or.inr hp) (Or.inr hq)
  obtain ⟨m1, m2⟩ := prio_lt_iff hr'.wf (Or.inr (hdecl hp)) (Or.inr (hdecl hq))
  have f1 := priority_run hr2.wf (Or.inr hp)
  have f2 := priority_run hr2.wf (Or.inr hq)
  have f3 := priority_run hr'.wf (Or.inr (hdecl hp))
  have f4 := priority_run hr'.wf (Or.inr (hdecl hq))
  rw [← hr2.layers] at f1 f2
  rw [← hr'.layers] at f3 f4
  refine ⟨_, _, _, _, f1, f2, f3, f4, ?_, ?_⟩
  · have := l1.trans ((below_nested hp hq hfresh').symm.trans m1.symm)
    exact this
  · have : (A ++ p = A ++ q) ↔ p = q := by simp
    exact l2.trans (this.symm.trans m2.symm)

/-- `C10_import_layer_order_partial`: a sheet with rules in the layers `a.c`, none and `b`, imported
into layer `z` of a sheet that has the layers `a` and `z`. -/
example : let is2 : List (Item Unit Unit Unit Unit Unit Nat Unit Unit) :=
      [.rule ⟨[⟨['a', '.', 'c'], [], ()⟩], []⟩, .rule ⟨[⟨[], [], ()⟩], []⟩, .rule ⟨[⟨['b'], [], ()⟩], []⟩]
    let ds1 : List Path := [[['a']], [['z']]]
    let ds2 : List Path := [[['a'], ['c']], [['b']]]
    (∀ r ∈ rulesOf is2, SameLayer r) ∧ NoLayerStatement is2 ∧ LayerHistory is2 ds2 ∧
    LayerHistory ([.layers [['a'], ['z']]] : List (Item Unit Unit Unit Unit Unit Nat Unit Unit)) ds1 ∧
    (∀ d ∈ ds1, ∀ e ∈ ds2, ∀ c, [c] <+: e → ¬ ([['z']] ++ [c]) <+: d) := by
  refine ⟨by simp [rulesOf, SameLayer], by simp [NoLayerStatement], ?_, ?_, ?_⟩
  · unfold LayerHistory
    show List.Forall₂ _ [['a', '.', 'c'], ['b']] _
    refine .cons ?_ (.cons ?_ .nil) <;> exact ⟨by decide, rfl⟩
  · unfold LayerHistory
    show List.Forall₂ _ [['a'], ['z']] _
    refine .cons ?_ (.cons ?_ .nil) <;> exact ⟨by decide, rfl⟩
  · simp [List.cons_prefix_cons]

/-! ## The full property is false -/

private def ruleIn (l : Char) (v : Nat) : SrcRule Unit Unit Unit Unit Unit Nat Unit Unit :=
  ⟨[⟨[l], [], ()⟩], [.prop (.specific (.id 0) (.value v))]⟩

/-- `@layer a, b; @layer b { … 1 } @layer a { … 2 }` -/
private def imported : List (Item Unit Unit Unit Unit Unit Nat Unit Unit) :=
  [.layers [['a'], ['b']], .rule (ruleIn 'b' 1), .rule (ruleIn 'a' 2)]

private theorem imported_history : LayerHistory imported [[['a']], [['b']], [['b']], [['a']]] := by
  unfold LayerHistory
  show List.Forall₂ _ [['a'], ['b'], ['b'], ['a']] _
  refine .cons ?_ (.cons ?_ (.cons ?_ (.cons ?_ .nil))) <;> exact ⟨by decide, rfl⟩

private theorem imported_rules_history :
    LayerHistory ((rulesOf imported).map fun r => Item.rule (inLayer [] r)) [[['b']], [['a']]] := by
  unfold LayerHistory
  show List.Forall₂ _ [['b'], ['a']] _
  refine .cons ?_ (.cons ?_ .nil) <;> exact ⟨by decide, rfl⟩

/-- C10 is false: there is a sheet whose layer `a` is below its layer `b`, but importing it (into an
empty sheet, without layer) gives a sheet where `b` is below `a`. -/
theorem C10_import_reorders_layers :
    ∃ (is2 : List (Item Unit Unit Unit Unit Unit Nat Unit Unit))
      (b2 : Builder Unit Unit Unit Unit Unit Nat Unit Unit)
      (o : StyleSheet Unit Unit Unit Unit Unit Nat Unit Unit)
      (b' : Builder Unit Unit Unit Unit Unit Nat Unit Unit),
      Builder.new.addItems is2 = some b2 ∧
      b2.build (fun _ => none) (fun _ _ => true) (fun _ => 0) .value = some (.ok o) ∧
      Builder.new.embed o none = some b' ∧
      (∃ i j, priority b2.layers ['a'] = some i ∧ priority b2.layers ['b'] = some j ∧ i < j) ∧
      (∃ i j, priority b'.layers ['a'] = some i ∧ priority b'.layers ['b'] = some j ∧ j < i) := by
  obtain ⟨b2, hb2, hr2⟩ := realises_source (fun _ => none) .value imported_history
  obtain ⟨b0, hb0, hr0⟩ := realises_source (S := Unit) (M := Unit) (C := Unit) (N := Unit) (T := Unit)
    (V := Nat) (X := Unit) (Y := Unit) (is := []) (ds := []) (fun _ => none) .value .nil
  have e0 : b0 = Builder.new := by
    have : (Builder.new : Builder Unit Unit Unit Unit Unit Nat Unit Unit).addItems [] =
      some Builder.new := rfl
    rw [this] at hb0; cases hb0; rfl
  subst e0
  have hok : ∃ sh, b2.build (fun _ => none) (fun _ _ => true) (fun _ => 0) .value = some (.ok sh) := by
    rw [hr2.ok_iff]
    refine ⟨by simp [imported, rulesOf, ruleIn], ?_⟩
    have hrs : b2.rulesets = (rulesOf imported).map body := by
      rw [addItems_eq] at hb2
      simp only [Option.map_eq_some_iff] at hb2
      obtain ⟨_, _, rfl⟩ := hb2
      rfl
    rw [hrs]
    exact ⟨[[.specific 0 (.value 1)], [.specific 0 (.value 2)]],
      .cons rfl (.cons rfl .nil), by simp⟩
  obtain ⟨o, ho⟩ := hok
  obtain ⟨b', hb', hr'⟩ := hr0.embed (fun v w h => by cases h; rfl) hr2 ho (layer := none) (by simp)
    (by simp [imported, rulesOf, ruleIn, SameLayer]) imported_rules_history
  refine ⟨imported, b2, o, b', hb2, ho, hb', ?_, ?_⟩
  · rw [hr2.layers]; exact ⟨0, 1, by decide, by decide, by decide⟩
  · rw [hr'.layers]; exact ⟨1, 0, by decide, by decide, by decide⟩

end Flair.Props
