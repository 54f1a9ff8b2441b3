import Verif.Spec.Pointer
import Verif.Props.StyleData
import Mathlib.Data.List.Permutation
/-!
# C91: `:hover` and `:active` follow the pointer; C92: the type of an element is its type name
-/
namespace Flair.Props
open Flair.StyleData Flair.Pointer Flair.Spec

/-! ## C91 -/

private def ints : PEdit → Option (Edit Interaction)
  | .interaction e => some e
  | _ => none
private def hovs : PEdit → Option (Edit Bool)
  | .hovered e => some e
  | _ => none
private def prs : PEdit → Option (Edit Unit)
  | .pressed e => some e
  | _ => none

private theorem split_edits (es : List PEdit) (c : Comps) :
    es.foldl Comps.edit c = ⟨(es.filterMap ints).foldl Comp.edit c.interaction,
      (es.filterMap hovs).foldl Comp.edit c.hovered, (es.filterMap prs).foldl Comp.edit c.pressed⟩ := by
  induction es generalizing c with
  | nil => rfl
  | cons e es ih =>
    rw [List.foldl_cons, ih]
    cases e <;> rfl

private theorem orders {order : List Sys} (h : AllSystems order) :
    order ∈ [[Sys.pressed, .hovered, .interaction], [.hovered, .pressed, .interaction], [.interaction, .hovered, .pressed],
      [.hovered, .interaction, .pressed], [.interaction, .pressed, .hovered], [.pressed, .interaction, .hovered]] := by
  have := List.mem_permutations.mpr h
  revert this
  simp only [List.permutations, List.permutationsAux, List.permutationsAux.rec]
  exact id

private theorem pass_markers {order : List Sys} (h : AllSystems order) (c : Comps) (s : PointerState)
    (hi : c.interaction.value = none) :
    pass order c s = { pressed := syncMarker c.pressed s.pressed, hovered := applyChanged c.hovered s.hovered } := by
  have hint : ∀ s, Sys.run c s .interaction = s := by intro s; simp [Sys.run, syncInteraction, hi]
  have hh : ∀ s, Sys.run c s .hovered = { s with hovered := applyChanged c.hovered s.hovered } := by
    intro s
    simp only [Sys.run, syncHovered, applyChanged]
    cases c.hovered.value with
    | none => rfl
    | some v => dsimp only; split <;> rfl
  have hp : ∀ s, Sys.run c s .pressed = { s with pressed := syncMarker c.pressed s.pressed } := fun s => rfl
  have ho := orders h
  simp only [List.mem_cons, List.not_mem_nil, or_false] at ho
  rcases ho with rfl | rfl | rfl | rfl | rfl | rfl <;>
    simp only [pass, List.foldl_cons, List.foldl_nil, hint, hh, hp]

private theorem pass_interaction {order : List Sys} (h : AllSystems order) (c : Comps) (s : PointerState)
    (hh : c.hovered.value = none) (hp : c.pressed.added = false ∧ c.pressed.removed = false) :
    pass order c s = syncInteraction c s := by
  have h1 : ∀ s, Sys.run c s .hovered = s := by intro s; simp [Sys.run, syncHovered, hh]
  have h2 : ∀ s, Sys.run c s .pressed = s := by intro s; simp [Sys.run, syncPressed, syncMarker, hp]
  have ho := orders h
  simp only [List.mem_cons, List.not_mem_nil, or_false] at ho
  rcases ho with rfl | rfl | rfl | rfl | rfl | rfl <;>
    simp only [pass, List.foldl_cons, List.foldl_nil, h1, h2] <;> rfl

private theorem none_of {X : Type} {f : PEdit → Option X} {es : List PEdit} (h : ∀ e ∈ es, f e = none) :
    es.filterMap f = [] := by simpa using h

private theorem markers_step {order : List Sys} (ho : AllSystems order) (edits : List PEdit) (c : Comps)
    (s : PointerState) (hok : ∀ e ∈ edits, MarkersOnly e) (h0 : c = c.calm) (hi : c.interaction.value = none)
    (hh : s.hovered = c.hovered.value.getD false) (hp : s.pressed = true ↔ c.pressed.value ≠ none) :
    (edits.foldl Comps.edit c).interaction.value = none ∧
    (pass order (edits.foldl Comps.edit c) s).hovered = (edits.foldl Comps.edit c).hovered.value.getD false ∧
    ((pass order (edits.foldl Comps.edit c) s).pressed = true ↔ (edits.foldl Comps.edit c).pressed.value ≠ none) := by
  have hints : edits.filterMap ints = [] := none_of fun e he => by
    have := hok e he
    cases e with
    | interaction => exact this.elim
    | hovered => rfl
    | pressed => rfl
  rw [split_edits, h0]
  have hi' : (⟨(edits.filterMap ints).foldl Comp.edit c.calm.interaction,
      (edits.filterMap hovs).foldl Comp.edit c.calm.hovered, (edits.filterMap prs).foldl Comp.edit c.calm.pressed⟩ :
      Comps).interaction.value = none := by rw [hints]; exact hi
  refine ⟨hi', ?_⟩
  rw [pass_markers ho _ _ hi']
  refine ⟨changed_step _ ?_ hh, marker_step _ hp⟩
  intro hm
  rw [List.mem_filterMap] at hm
  obtain ⟨e, he, hv⟩ := hm
  have := hok e he
  cases e with
  | interaction => simp [hovs] at hv
  | pressed => simp [hovs] at hv
  | hovered x =>
    simp only [hovs, Option.some.injEq] at hv
    subst hv
    exact this

/-- On nodes without `Interaction`: in every history in which `Hovered` is not removed, whatever the order of the systems,
after each pass `:hover` holds exactly while the pointer is over the node, and `:active` exactly while it is pressed. -/
theorem C91_markers_partial (order : List Sys) (ho : AllSystems order) (c : Comps) (s : PointerState)
    (h : PointerRun order MarkersOnly c s) :
    (s.hovered = true ↔ PointerOver c) ∧ (s.pressed = true ↔ PointerPress c) := by
  have key : c.interaction.value = none ∧ s.hovered = c.hovered.value.getD false ∧
      (s.pressed = true ↔ c.pressed.value ≠ none) := by
    induction h with
    | styled edits hok => exact markers_step ho edits _ _ hok rfl rfl rfl (by simp [Comp.quiet])
    | frame edits _ hok ih => exact markers_step ho edits _ _ hok rfl ih.1 ih.2.1 ih.2.2
  obtain ⟨h1, h2, h3⟩ := key
  refine ⟨?_, ?_⟩
  · rw [h2, PointerOver, h1]
    cases c.hovered.value <;> simp
  · rw [h3, PointerPress, h1]
    cases c.pressed.value <;> simp

private theorem sync_facts (d : Comp Interaction) (h : Comp Bool) (p : Comp Unit) {s : PointerState}
    (v : Option Interaction) (hs : s.pressed = (v == some .pressed) ∧ s.hovered = (v == some .hovered))
    (hc : applyChanged d (v.getD .none) = d.value.getD .none) :
    (syncInteraction ⟨d, h, p⟩ s).pressed = (d.value == some .pressed) ∧
    (syncInteraction ⟨d, h, p⟩ s).hovered = (d.value == some .hovered) := by
  unfold applyChanged at hc
  unfold syncInteraction
  obtain ⟨value, changed, added, removed⟩ := d
  dsimp only at hc ⊢
  cases value with
  | none =>
    dsimp only at hc ⊢
    cases v with
    | none => exact hs
    | some v =>
      simp only [Option.getD_some, Option.getD_none] at hc
      subst hc
      exact hs
  | some x =>
    dsimp only at hc ⊢
    cases changed with
    | true => exact ⟨by cases x <;> rfl, by cases x <;> rfl⟩
    | false =>
      simp only [Bool.false_eq_true, if_false, Option.getD_some] at hc ⊢
      cases v with
      | none =>
        simp only [Option.getD_none] at hc
        subst hc
        exact hs
      | some v =>
        simp only [Option.getD_some] at hc
        subst hc
        exact hs

private theorem interaction_step {order : List Sys} (ho : AllSystems order) (edits : List PEdit) (c : Comps)
    (s : PointerState) (hok : ∀ e ∈ edits, InteractionOnly e) (h0 : c = c.calm) (hn : c.hovered.value = none)
    (hp : c.pressed.value = none) (hs : s.pressed = (c.interaction.value == some .pressed) ∧
      s.hovered = (c.interaction.value == some .hovered)) :
    (edits.foldl Comps.edit c).hovered.value = none ∧ (edits.foldl Comps.edit c).pressed.value = none ∧
    (pass order (edits.foldl Comps.edit c) s).pressed = ((edits.foldl Comps.edit c).interaction.value == some .pressed) ∧
    (pass order (edits.foldl Comps.edit c) s).hovered = ((edits.foldl Comps.edit c).interaction.value == some .hovered) := by
  have h1 : edits.filterMap hovs = [] := none_of fun e he => by
    have := hok e he
    cases e with
    | interaction => rfl
    | hovered => exact this.elim
    | pressed => rfl
  have h2 : edits.filterMap prs = [] := none_of fun e he => by
    have := hok e he
    cases e with
    | interaction => rfl
    | hovered => rfl
    | pressed => exact this.elim
  have h3 : NoRemoval c.interaction.value (edits.filterMap ints) := by
    intro hm
    rw [List.mem_filterMap] at hm
    obtain ⟨e, he, hv⟩ := hm
    have := hok e he
    cases e with
    | interaction x =>
      simp only [ints, Option.some.injEq] at hv
      subst hv
      exact this
    | hovered => simp [ints] at hv
    | pressed => simp [ints] at hv
  rw [split_edits, h1, h2, h0]
  refine ⟨hn, hp, ?_⟩
  have hpass := pass_interaction ho ⟨(edits.filterMap ints).foldl Comp.edit c.calm.interaction,
    [].foldl Comp.edit c.calm.hovered, [].foldl Comp.edit c.calm.pressed⟩ s hn ⟨rfl, rfl⟩
  rw [hpass]
  exact sync_facts _ _ _ _ hs (changed_step (init := Interaction.none) _ h3 rfl)

/-- On nodes with `Interaction` only: in every history in which it is not removed, after each pass `:active` holds exactly
while the node is pressed, and `:hover` exactly while it is hovered and not pressed. -/
theorem C91_interaction_partial (order : List Sys) (ho : AllSystems order) (c : Comps) (s : PointerState)
    (h : PointerRun order InteractionOnly c s) :
    (s.pressed = true ↔ PointerPress c) ∧ (s.hovered = true ↔ PointerOver c ∧ ¬ PointerPress c) := by
  have key : c.hovered.value = none ∧ c.pressed.value = none ∧ s.pressed = (c.interaction.value == some .pressed) ∧
      s.hovered = (c.interaction.value == some .hovered) := by
    induction h with
    | styled edits hok => exact interaction_step ho edits _ _ hok rfl rfl rfl ⟨rfl, rfl⟩
    | frame edits _ hok ih => exact interaction_step ho edits _ _ hok rfl ih.1 ih.2.1 ih.2.2
  obtain ⟨h1, h2, h3, h4⟩ := key
  rw [h3, h4, PointerOver, PointerPress, h1, h2]
  cases c.interaction.value with
  | none => simp
  | some v => cases v <;> simp

private def usual : List Sys := [.pressed, .hovered, .interaction]

private theorem usual_all : AllSystems usual := List.Perm.refl _

example : AllSystems [.interaction, .pressed, .hovered] ∧ ∃ c s, PointerRun [.interaction, .pressed, .hovered] MarkersOnly c s ∧
    PointerOver c ∧ PointerPress c ∧ s = ⟨true, true⟩ := by
  refine ⟨show List.Perm _ _ by decide, _, _, PointerRun.frame [.pressed (.set ())] (PointerRun.styled [.hovered (.set true)] ?_) ?_, ?_, ?_, ?_⟩
  · simp [MarkersOnly]
  · simp [MarkersOnly]
  · exact .inl rfl
  · exact .inl rfl
  · rfl

/-- C91 is false: a node with `Interaction` that is pressed is no longer `:hover`, though the pointer is over it. -/
theorem C91_pressed_not_hovered : ∃ order c s, AllSystems order ∧ PointerRun order AnyPointerEdit c s ∧ PointerOver c ∧
    s.hovered = false := by
  refine ⟨usual, _, _, usual_all, PointerRun.frame [.interaction (.set .pressed)]
    (PointerRun.styled [.interaction (.set .hovered)] (by simp [AnyPointerEdit])) (by simp [AnyPointerEdit]), .inr (.inr rfl), rfl⟩

/-- C91 is false: with `Hovered` and `Interaction` on one node, a change of the latter hides the former. -/
theorem C91_both_sources : ∃ order c s, AllSystems order ∧ PointerRun order AnyPointerEdit c s ∧
    c.hovered.value = some true ∧ s.hovered = false := by
  refine ⟨usual, _, _, usual_all, PointerRun.frame [.interaction (.set .none)]
    (PointerRun.styled [.hovered (.set true)] (by simp [AnyPointerEdit])) (by simp [AnyPointerEdit]), rfl, rfl⟩

/-- C91 is false: removing `Hovered` or `Interaction` leaves the node `:hover` and `:active`. -/
theorem C91_removed : (∃ order c s, AllSystems order ∧ PointerRun order AnyPointerEdit c s ∧ ¬ PointerOver c ∧ s.hovered = true) ∧
    ∃ order c s, AllSystems order ∧ PointerRun order AnyPointerEdit c s ∧ ¬ PointerPress c ∧ s.pressed = true := by
  constructor
  · refine ⟨usual, _, _, usual_all, PointerRun.frame [.hovered .remove]
      (PointerRun.styled [.hovered (.set true)] (by simp [AnyPointerEdit])) (by simp [AnyPointerEdit]), ?_, rfl⟩
    rintro (h | h | h) <;> cases h
  · refine ⟨usual, _, _, usual_all, PointerRun.frame [.interaction .remove]
      (PointerRun.styled [.interaction (.set .pressed)] (by simp [AnyPointerEdit])) (by simp [AnyPointerEdit]), ?_, rfl⟩
    rintro (h | h) <;> cases h

/-! ## C92 -/

private theorem run_append (t : Typed) (l1 l2 : List TEdit) : t.run (l1 ++ l2) = (t.run l1).bind fun t => t.run l2 := by
  induction l1 generalizing t with
  | nil => rfl
  | cons e l ih =>
    simp only [List.cons_append, Typed.run]
    cases t.step e with
    | none => rfl
    | some t' => simp [ih]

private theorem run_unnamed (l : List TEdit) (h : ∀ m, .name m ∉ l) : ∀ t : Typed,
    ∃ c, t.run l = some ⟨c, if .style ∈ l then some (t.data.getD none) else t.data⟩ := by
  induction l with
  | nil => intro t; exact ⟨t.component, rfl⟩
  | cons e l ih =>
    intro t
    have hl : ∀ m, .name m ∉ l := fun m hm => h m (by simp [hm])
    cases e with
    | name n => exact absurd (by simp) (h n)
    | unname =>
      obtain ⟨c, hc⟩ := ih hl { t with component := none }
      exact ⟨c, by simpa [Typed.run, Typed.step] using hc⟩
    | style =>
      obtain ⟨c, hc⟩ := ih hl { t with data := some (t.data.getD none) }
      refine ⟨c, ?_⟩
      simp only [Typed.run, Typed.step, Option.bind_some, hc, List.mem_cons, true_or, if_true, Option.getD_some, ite_self]

private theorem lastName_unnamed {l : List TEdit} (h : ∀ m, .name m ∉ l) : lastName l = none := by
  induction l with
  | nil => rfl
  | cons e l ih =>
    have hl : ∀ m, .name m ∉ l := fun m hm => h m (by simp [hm])
    cases e with
    | name n => exact absurd (by simp) (h n)
    | unname => exact ih hl
    | style => exact ih hl

private theorem lastName_append (l1 l2 : List TEdit) : lastName (l1 ++ l2) = (lastName l2).or (lastName l1) := by
  induction l1 with
  | nil => simp [lastName]
  | cons e l ih =>
    cases e with
    | name n => simp only [List.cons_append, lastName, ih, Option.or_assoc]
    | unname => simpa [lastName] using ih
    | style => simpa [lastName] using ih

/-- C92, when the name is inserted once and the node has its style data: nothing crashes, and the type of the element is
the name, from then on. -/
theorem C92_once_partial (edits : List TEdit) (h : NamedOnce edits) :
    ∃ t, Typed.run {} edits = some t ∧ t.data = some (lastName edits) ∧ lastName edits ≠ none := by
  obtain ⟨l1, l2, n, hs, h1, h2⟩ := h
  obtain ⟨c1, hc1⟩ := run_unnamed l1 h1 {}
  rw [if_pos hs] at hc1
  obtain ⟨c2, hc2⟩ := run_unnamed l2 h2 ⟨some n, some (some n)⟩
  have hl : lastName (l1 ++ .name n :: l2) = some n := by
    rw [lastName_append, lastName, lastName_unnamed h1, lastName_unnamed h2]; rfl
  refine ⟨⟨c2, some (some n)⟩, ?_, by rw [hl], by rw [hl]; simp⟩
  rw [run_append, hc1]
  simp only [Option.getD_some, ite_self] at hc2
  simp only [Option.bind_some, Typed.run, Typed.step, Option.getD_none, hc2]

example : NamedOnce [.style, .name "button", .unname] := .mk [.style] [.unname] "button" (by simp) (by simp) (by simp)

/-- C92 is false: a second insertion crashes, even after a removal and even with the same name. -/
theorem C92_twice_crashes (n m : String) : Typed.run {} [.style, .name n, .unname, .name m] = none := rfl

/-- C92 is false: a name that is inserted before the node has its style data is lost, and so is the type when the name
is removed. -/
theorem C92_early_lost (n : String) : Typed.run {} [.name n, .style] = some ⟨some n, some none⟩ ∧
    Typed.run {} [.style, .name n, .unname] = some ⟨none, some (some n)⟩ := ⟨rfl, rfl⟩

end Flair.Props
