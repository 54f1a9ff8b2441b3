import Verif.Spec.Schedule
import Verif.Model.NodeProps
/-!
# C106: a frame does the same in every schedule
-/
namespace Flair.Props
open Flair.Schedule Flair.Spec
variable {T : Ty}

private def hide (w : W T) : W T := { w with anyActive := false }

private theorem same_iff (w w' : W T) : SameWorld w w' ↔ hide w = hide w' := Iff.rfl

/-- no system looks at the flag -/
private theorem run_hide (c : Code T) (app : T.App) (w : W T) (s : Sys) : hide (run c app (hide w) s) = hide (run c app w s) := by
  cases s <;> first
    | rfl
    | (cases h : w.anyChanged <;> simp [run, hide, h])

private theorem run_congr (c : Code T) (app : T.App) (w w' : W T) (s : Sys) (h : hide w = hide w') :
    hide (run c app w s) = hide (run c app w' s) := by
  rw [← run_hide c app w, h, run_hide]

private theorem or_comm {E : Type} (a b d : E → Bool) : orSet (orSet a b) d = orSet (orSet a d) b := by
  funext e; exact Bool.or_right_comm _ _ _

private theorem put_comm {E V : Type} (a b : E → Option V) (o : E → V) (h : ∀ e, a e = none ∨ b e = none) :
    put a (put b o) = put b (put a o) := by
  funext e
  rcases h e with h | h <;> simp [put, h]

private theorem tick_reset (c : Code T) (hc : NothingToTick c) (app : T.App) (r : T.E → Bool) (a : T.E → T.Anim) :
    ticked c app (onSet r c.noAnim a) = onSet r c.noAnim (ticked c app a) := by
  funext e
  simp only [ticked, onSet]
  by_cases hr : r e = true <;> simp [hr, show c.tickable c.noAnim = false from hc]

private theorem tick_reset_events (c : Code T) (hc : NothingToTick c) (app : T.App) (r : T.E → Bool) (a : T.E → T.Anim)
    (ev : T.E → List T.Ev) :
    tickedEvents c app (onSet r c.noAnim a) (onSet r [] ev) = onSet r [] (tickedEvents c app a ev) := by
  funext e
  simp only [tickedEvents, onSet]
  by_cases hr : r e = true <;> simp [hr, show c.tickable c.noAnim = false from hc]

private theorem resets_eq (c : Code T) (app : T.App) (w : W T) : resets c app w = fun e => w.needsReset e || c.added app e := rfl

private theorem sheet_reset (c : Code T) (app : T.App) (w : W T) :
    run c app (run c app w .effectiveSheet) .resetProps = run c app (run c app w .resetProps) .effectiveSheet := by
  simp only [run, resets_eq]
  rw [or_comm w.needsRecalc]
  rfl

set_option maxHeartbeats 8000000 in
/-- systems without order between them commute -/
private theorem commute (c : Code T) (hc : NothingToTick c) (app : T.App) (ho : OneSource c app) (w : W T) (s t : Sys)
    (h1 : before s t = false) (h2 : before t s = false) :
    hide (run c app (run c app w s) t) = hide (run c app (run c app w t) s) := by
  have hp : ∀ e, c.pressedNow app e = none ∨ (c.interactionNow app e).map Prod.fst = none := by
    intro e
    by_cases h : c.interactionNow app e = none
    · exact .inr (by rw [h]; rfl)
    · exact .inl (ho e h).1
  have hh : ∀ e, c.hoveredNow app e = none ∨ (c.interactionNow app e).map Prod.snd = none := by
    intro e
    by_cases h : c.interactionNow app e = none
    · exact .inr (by rw [h]; rfl)
    · exact .inl (ho e h).2
  cases s <;> cases t <;> first
    | exact absurd h1 (by decide)
    | exact absurd h2 (by decide)
    | rfl
    | exact congrArg hide (sheet_reset c app w)
    | exact congrArg hide (sheet_reset c app w).symm
    | (simp only [run, hide]; rw [or_comm w.dataChanged]; done)
    | (simp only [run, hide]; rw [or_comm w.needsRecalc]; done)
    | (simp only [run, hide]; rw [or_comm w.dataChanged, put_comm _ _ w.pressed hp]; done)
    | (simp only [run, hide]; rw [or_comm w.dataChanged, ← put_comm _ _ w.pressed hp]; done)
    | (simp only [run, hide]; rw [or_comm w.dataChanged, put_comm _ _ w.hovered hh]; done)
    | (simp only [run, hide]; rw [or_comm w.dataChanged, ← put_comm _ _ w.hovered hh]; done)
    | (simp only [run, hide, resets_eq]; rw [tick_reset c hc, tick_reset_events c hc]; done)
    | (cases h : w.anyChanged <;> simp [run, hide, h])

/-- a system that nothing has to precede can be moved to the front -/
private theorem to_front (c : Code T) (hc : NothingToTick c) (app : T.App) (ho : OneSource c app) (s : Sys) (a b : List Sys)
    (h : ∀ t ∈ a, before s t = false ∧ before t s = false) (w : W T) :
    hide (frame c app (a ++ s :: b) w) = hide (frame c app (s :: (a ++ b)) w) := by
  have cong : ∀ (l : List Sys) (w w' : W T), hide w = hide w' → hide (frame c app l w) = hide (frame c app l w') := by
    intro l
    induction l with
    | nil => intro w w' h; exact h
    | cons t l ih => intro w w' h; exact ih _ _ (run_congr c app w w' t h)
  induction a generalizing w with
  | nil => rfl
  | cons t a ih =>
    have := ih (fun x hx => h x (List.mem_cons_of_mem _ hx)) (run c app w t)
    refine this.trans ?_
    refine cong (a ++ b) _ _ ?_
    exact commute c hc app ho w t s (h t List.mem_cons_self).2 (h t List.mem_cons_self).1

private theorem reorder (c : Code T) (hc : NothingToTick c) (app : T.App) (ho : OneSource c app) (l₁ l₂ : List Sys)
    (hp : l₁.Perm l₂) (h₁ : l₁.Pairwise fun s t => before t s = false) (h₂ : l₂.Pairwise fun s t => before t s = false)
    (w w' : W T) (hw : hide w = hide w') : hide (frame c app l₁ w) = hide (frame c app l₂ w') := by
  induction l₁ generalizing l₂ w w' with
  | nil => obtain rfl := List.Perm.nil_eq hp; exact hw
  | cons s l₁ ih =>
    obtain ⟨a, b, rfl⟩ := List.append_of_mem (hp.subset List.mem_cons_self)
    have hp' : l₁.Perm (a ++ b) := (List.perm_cons s).1 (hp.trans List.perm_middle)
    rw [List.pairwise_cons] at h₁
    have ha : ∀ t ∈ a, before s t = false ∧ before t s = false := by
      intro t ht
      refine ⟨?_, h₁.1 t (hp'.symm.subset (List.mem_append_left _ ht))⟩
      exact (List.pairwise_append.1 h₂).2.2 t ht s List.mem_cons_self
    rw [to_front c hc app ho s a b ha w']
    refine ih (a ++ b) hp' h₁.2 ?_ _ _ (run_congr c app w w' s hw)
    obtain ⟨q1, q2, q3⟩ := List.pairwise_append.1 h₂
    exact List.pairwise_append.2 ⟨q1, (List.pairwise_cons.1 q2).2, fun x hx y hy => q3 x hx y (List.mem_cons_of_mem _ hy)⟩

private theorem schedules_perm {l₁ l₂ : List Sys} (h₁ : IsSchedule l₁) (h₂ : IsSchedule l₂) : l₁.Perm l₂ :=
  (List.perm_ext_iff_of_nodup h₁.nodup h₂.nodup).2 fun s => ⟨fun _ => h₂.all s, fun _ => h₁.all s⟩

/-- **C106**: two schedules of one frame leave the same world: the same styled components, values, animations, events sent, marks,
whatever the systems compute — as long as no node gets new values of `Interaction` and of `Pressed` or `Hovered` in this frame. -/
theorem C106_frame_partial (c : Code T) (hc : NothingToTick c) (app : T.App) (ho : OneSource c app) (l₁ l₂ : List Sys)
    (h₁ : IsSchedule l₁) (h₂ : IsSchedule l₂) (w : W T) : SameWorld (frame c app l₁ w) (frame c app l₂ w) :=
  reorder c hc app ho l₁ l₂ (schedules_perm h₁ h₂) h₁.respects h₂.respects w w rfl

/-- **C106**: so do two runs of the same history of frames, whatever the schedule of each. -/
theorem C106_history_partial (c : Code T) (hc : NothingToTick c) (h : List (Step T × List Sys × List Sys))
    (hh : ∀ s ∈ h, OneSource c s.1.app ∧ IsSchedule s.2.1 ∧ IsSchedule s.2.2) (w : W T) :
    SameWorld (frames c (h.map fun s => (s.1, s.2.1)) w) (frames c (h.map fun s => (s.1, s.2.2)) w) := by
  suffices ∀ w w', SameWorld w w' →
      SameWorld (frames c (h.map fun s => (s.1, s.2.1)) w) (frames c (h.map fun s => (s.1, s.2.2)) w') from this w w rfl
  induction h with
  | nil => intro w w' hw; exact hw
  | cons s h ih =>
    intro w w' hw
    obtain ⟨ho, h₁, h₂⟩ := hh s List.mem_cons_self
    exact ih (fun x hx => hh x (List.mem_cons_of_mem _ hx)) _ _
      (reorder c hc s.1.app ho _ _ (schedules_perm h₁ h₂) h₁.respects h₂.respects _ _ (s.1.blind w w' hw))

/-- the order in which the plugin adds them -/
def usualOrder : List Sys :=
  [.markSheets, .clearGlobal, .windowTheme, .effectiveSheet, .windowMediaFeatures, .sortPseudo, .syncSiblings, .resetProps, .tick,
    .isRoot, .applyClasses, .applyAttributes, .syncPressed, .syncDisabled, .syncChecked, .syncHovered, .syncInteraction,
    .trackName, .syncFocus, .parseInline, .markRelated, .markChanged, .markTarget, .markWindow, .calculate, .setValues,
    .compute, .setPending, .resolveAnims, .setAnimValues, .placeholders, .apply, .autoRemove, .emitEvents, .emitRedraw]

/-- another one: animations last and first, `Interaction` before the markers, events before the values are applied -/
def otherOrder : List Sys :=
  [.windowTheme, .clearGlobal, .markSheets, .tick, .resetProps, .sortPseudo, .effectiveSheet, .syncSiblings, .windowMediaFeatures,
    .syncFocus, .syncInteraction, .trackName, .parseInline, .syncHovered, .syncPressed, .syncChecked, .syncDisabled,
    .applyAttributes, .applyClasses, .isRoot, .markRelated, .markChanged, .markWindow, .markTarget, .calculate, .setValues,
    .setPending, .compute, .resolveAnims, .setAnimValues, .emitEvents, .placeholders, .apply, .autoRemove, .emitRedraw]

/-- Both are schedules. -/
theorem C106_schedules : IsSchedule usualOrder ∧ IsSchedule otherOrder :=
  ⟨⟨by decide, by intro s; cases s <;> decide, by decide⟩, ⟨by decide, by intro s; cases s <;> decide, by decide⟩⟩

/-- one entity, and nothing else to be distinguished -/
def oneNode : Ty :=
  ⟨Unit, Unit, Unit, Unit, Unit, Unit, Unit, Unit, Unit, Unit, Unit, Unit, Unit, Unit, Unit, Bool, Unit, Unit, Unit, Unit⟩

/-- A node whose `Pressed` was just inserted, and whose `Interaction`, if `interaction`, just became `None`; its animation
(`true`) runs -/
def pressedNode (interaction added : Bool) : Code oneNode where
  noVals := ()
  noAnim := false
  noFlags := ()
  noVars := ()
  modified _ _ _ := false
  resetComps _ _ _ x := x
  theme _ x := x
  sheetVisited _ _ _ := false
  sheetOf _ _ := ()
  sameSheet _ _ := true
  media _ _ x := x
  sort _ x := x
  siblings _ _ x := x
  added _ _ := added
  tickable a := a
  active a := a
  tick _ a := (a, [])
  rootNow _ _ := none
  classesNow _ _ := none
  attrsNow _ _ := none
  idNow _ _ := none
  pressedNow _ _ := some true
  disabledNow _ _ := none
  checkedNow _ _ := none
  hoveredNow _ _ := none
  interactionNow _ _ := if interaction then some (false, false) else none
  focusNow _ _ _ := none
  focusSeen _ x := x
  inlineNow _ _ := none
  related _ _ _ _ := false
  changed _ _ d _ _ _ _ e := d e
  targetInfo _ _ _ := false
  windowMedia _ _ _ _ := false
  calculate _ w := (w.rules, w.vars, w.flags, fun _ => false)
  setValues _ w := (w.vals, w.anim, fun _ => [], fun _ => true, false)
  compute _ v a _ := (v, a, fun _ => [], fun _ => false)
  pending v := v
  resolve _ w := (w.anim, fun _ => [])
  animValues _ v _ := (v, fun _ => false)
  placeholders _ _ _ v := v
  apply _ _ v a x := (v, a, x)
  remove _ _ a x := (a, x)
  redraw a := a ()

/-- its world, with or without a running animation -/
def pressedWorld (anim : Bool) : W oneNode where
  win := ()
  media := ()
  kids := ()
  sib := ()
  sheet _ := ()
  isRoot _ := false
  classes _ := ()
  attrs _ := ()
  id _ := ()
  pressed _ := false
  hovered _ := false
  focused _ := false
  focusVisible _ := false
  disabled _ := false
  checked _ := false
  dataChanged _ := false
  lastFocus := ()
  inline _ := ()
  inlineChanged _ := false
  flags _ := ()
  vars _ := ()
  rules _ := ()
  needsReset _ := false
  needsRecalc _ := false
  needsApply _ := false
  vals _ := ()
  anim _ := anim
  events _ := []
  auto _ := ()
  comps := ()
  anyChanged := false
  anyActive := false
  sent _ := []
  redraw := false

/-- the hypotheses of the theorems hold for the node without `Interaction`, which does get `:active` -/
example : NothingToTick (pressedNode false true) ∧ OneSource (pressedNode false true) () ∧
    (frame (pressedNode false true) () usualOrder (pressedWorld true)).pressed () = true :=
  ⟨rfl, fun _ h => absurd rfl h, rfl⟩

/-- **C106** is false with two sources: when a node gets `Pressed` and its `Interaction` becomes `None` in the same frame, the
schedule decides if the node is `:active`. -/
theorem C106_two_sources :
    (frame (pressedNode true false) () usualOrder (pressedWorld false)).pressed () = false ∧
    (frame (pressedNode true false) () otherOrder (pressedWorld false)).pressed () = true := ⟨rfl, rfl⟩

/-- The private flag does depend on the schedule: a node that is reset while it is animated counts as active only if it is ticked
first.  (Nothing reads the flag, which is what `SameWorld` in the theorems above says.) -/
theorem C106_flag :
    (frame (pressedNode false true) () usualOrder (pressedWorld true)).anyActive = false ∧
    (frame (pressedNode false true) () otherOrder (pressedWorld true)).anyActive = true := by
  have u : (frame (pressedNode false true) () usualOrder (pressedWorld true)).anyActive =
      someActive (pressedNode false true) fun _ => false := rfl
  have o : (frame (pressedNode false true) () otherOrder (pressedWorld true)).anyActive =
      someActive (pressedNode false true) fun _ => true := rfl
  rw [u, o]
  simp only [someActive, decide_eq_false_iff_not, decide_eq_true_eq]
  exact ⟨fun ⟨_, h⟩ => (by cases h), (), rfl⟩

/-- The animations of the code (the model of C31 to C33) meet the assumption: nothing of a node without transitions and
animations is to be ticked, and ticking it is nothing. -/
theorem C106_nothing_to_tick {n : Nat} {V : Type} (fuel δ : Nat) :
    ¬NodeProps.hasTickable (NodeProps.empty : NodeProps.NP n V) ∧
    NodeProps.tickSystem fuel (NodeProps.empty : NodeProps.NP n V) δ = some NodeProps.empty := by
  have h : ¬NodeProps.hasTickable (NodeProps.empty : NodeProps.NP n V) := by
    simp [NodeProps.hasTickable, NodeProps.empty]
  exact ⟨h, by unfold NodeProps.tickSystem; rw [if_neg h]⟩

end Flair.Props
