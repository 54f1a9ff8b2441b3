import Mathlib.Data.List.Basic
/-!
# The systems of a frame and the orders they may run in

`FlairStylePlugin::build` (bevy_flair_style/src/lib.rs:338-447), `FlairStyleAnimationsPlugin::build` (lib.rs:302-320) and
`FlairCssParserPlugin::build` (bevy_flair_css_parser/src/lib.rs:250-253): which
systems there are, what each reads and writes, and which order between them is demanded.  Everything not ordered there may run
in any order.

What a system computes from what it reads is left open (`Code`: any functions; the other models say what they are), except for
what two systems that are not ordered both write: the marks of a node, the changed flags, the states and the animations.

The application's part of the world (`app`: components, resources, assets, messages) is not written by these systems, apart from
the styled components, windows and the order of children, which are fields of the world.  Simplified: a command takes effect
with the system that issues it (Bevy applies it before the first system ordered after it); observers of the application are not
part of a frame.
-/
namespace Flair.Schedule

/-! ## The world -/

/-- The types left open -/
structure Ty where
  /-- entities -/
  E : Type
  /-- what the application writes -/
  App : Type
  /-- `Window`, `WindowMediaFeatures` -/
  Win : Type
  Media : Type
  /-- `Children` (with its change ticks), `Siblings` -/
  Kids : Type
  Sib : Type
  /-- the effective sheet, classes, attributes and id of `NodeStyleData` -/
  Sheet : Type
  Classes : Type
  Attrs : Type
  Id : Type
  /-- the last focus `sync_input_focus` has seen -/
  Focus : Type
  /-- `NodeStyleSelectorFlags`, `NodeVars`, `NodeStyleActiveRules` -/
  Flags : Type
  Vars : Type
  Rules : Type
  /-- the value maps of `NodeProperties`, its transitions and animations, its events, its auto inserted components -/
  Vals : Type
  Anim : Type
  Ev : Type
  Auto : Type
  /-- the styled components -/
  Comps : Type
  /-- `RawInlineStyle` -/
  Inline : Type

variable {T : Ty}

/-- The part of the world the systems write -/
structure W (T : Ty) where
  win : T.Win
  media : T.Media
  kids : T.Kids
  sib : T.Sib
  sheet : T.E → T.Sheet
  isRoot : T.E → Bool
  classes : T.E → T.Classes
  attrs : T.E → T.Attrs
  id : T.E → T.Id
  /-- `NodePseudoState` -/
  pressed : T.E → Bool
  hovered : T.E → Bool
  focused : T.E → Bool
  focusVisible : T.E → Bool
  disabled : T.E → Bool
  checked : T.E → Bool
  /-- `Changed<NodeStyleData>` -/
  dataChanged : T.E → Bool
  lastFocus : T.Focus
  inline : T.E → T.Inline
  /-- `Changed<RawInlineStyle>` -/
  inlineChanged : T.E → Bool
  flags : T.E → T.Flags
  vars : T.E → T.Vars
  rules : T.E → T.Rules
  /-- `NodeStyleMarker` (components.rs:88-93) -/
  needsReset : T.E → Bool
  needsRecalc : T.E → Bool
  needsApply : T.E → Bool
  vals : T.E → T.Vals
  anim : T.E → T.Anim
  events : T.E → List T.Ev
  auto : T.E → T.Auto
  comps : T.Comps
  /-- `GlobalChangeDetection` (lib.rs:153-157) -/
  anyChanged : Bool
  anyActive : Bool
  /-- the events sent, the request for a redraw -/
  sent : T.E → List T.Ev
  redraw : Bool

/-- What the systems compute: functions of what they read -/
structure Code (T : Ty) where
  /-- the values and animations after `NodeProperties::reset`, the flags and variables after theirs -/
  noVals : T.Vals
  noAnim : T.Anim
  noFlags : T.Flags
  noVars : T.Vars
  /-- nodes whose sheet was modified, and the styled components after their reset -/
  modified : T.App → T.Sheet → T.E → Bool
  resetComps : T.App → (T.E → T.Sheet) → (T.E → T.Vals) → T.Comps → T.Comps
  theme : T.App → T.Win → T.Win
  /-- nodes visited, and the sheet found for a node -/
  sheetVisited : T.App → (T.E → T.Sheet) → T.E → Bool
  sheetOf : T.App → T.E → T.Sheet
  sameSheet : T.Sheet → T.Sheet → Bool
  media : T.App → T.Win → T.Media → T.Media
  sort : T.App → T.Kids → T.Kids
  siblings : T.App → T.Kids → T.Sib → T.Sib
  /-- `NodeProperties` was just added -/
  added : T.App → T.E → Bool
  tickable : T.Anim → Bool
  active : T.Anim → Bool
  tick : T.App → T.Anim → T.Anim × List T.Ev
  /-- what the components of a node changed to, if they did -/
  rootNow : T.App → T.E → Option Bool
  classesNow : T.App → T.E → Option T.Classes
  attrsNow : T.App → T.E → Option T.Attrs
  idNow : T.App → T.E → Option T.Id
  pressedNow : T.App → T.E → Option Bool
  disabledNow : T.App → T.E → Option Bool
  checkedNow : T.App → T.E → Option Bool
  hoveredNow : T.App → T.E → Option Bool
  /-- pressed and hovered, from `Interaction` -/
  interactionNow : T.App → T.E → Option (Bool × Bool)
  focusNow : T.App → T.Focus → T.E → Option (Bool × Bool)
  focusSeen : T.App → T.Focus → T.Focus
  /-- the parsed inline style, where it changed -/
  inlineNow : T.App → T.E → Option T.Inline
  related : T.App → T.Kids → (T.E → T.Flags) → T.E → Bool
  changed : T.App → T.Kids → (T.E → Bool) → (T.E → Bool) → (T.E → Bool) → (T.E → Bool) → (T.E → T.Flags) → T.E → Bool
  targetInfo : T.App → (T.E → T.Flags) → T.E → Bool
  windowMedia : T.App → T.Media → (T.E → T.Flags) → T.E → Bool
  /-- everything the later systems, which are all ordered, do: any function of the world -/
  calculate : T.App → W T → (T.E → T.Rules) × (T.E → T.Vars) × (T.E → T.Flags) × (T.E → Bool)
  setValues : T.App → W T → (T.E → T.Vals) × (T.E → T.Anim) × (T.E → List T.Ev) × (T.E → Bool) × Bool
  compute : T.App → (T.E → T.Vals) → (T.E → T.Anim) → T.Kids →
    (T.E → T.Vals) × (T.E → T.Anim) × (T.E → List T.Ev) × (T.E → Bool)
  pending : T.Vals → T.Vals
  resolve : T.App → W T → (T.E → T.Anim) × (T.E → List T.Ev)
  animValues : T.App → (T.E → T.Vals) → (T.E → T.Anim) → (T.E → T.Vals) × (T.E → Bool)
  placeholders : T.App → (T.E → T.Sheet) → (T.E → Bool) → (T.E → T.Vals) → T.E → T.Vals
  apply : T.App → (T.E → Bool) → (T.E → T.Vals) → (T.E → T.Auto) → T.Comps → (T.E → T.Vals) × (T.E → T.Auto) × T.Comps
  remove : T.App → (T.E → T.Vals) → (T.E → T.Auto) → T.Comps → (T.E → T.Auto) × T.Comps
  redraw : (T.E → T.Anim) → Bool

/-! ## The systems -/

/-- The systems (lib.rs:315-318, 382-444) -/
inductive Sys where
  | markSheets | clearGlobal | windowTheme
  | effectiveSheet | windowMediaFeatures | sortPseudo | syncSiblings | resetProps
  | tick
  | isRoot | applyClasses | applyAttributes | syncPressed | syncDisabled | syncChecked | syncHovered | syncInteraction
  | trackName | syncFocus | parseInline
  | markRelated | markChanged | markTarget | markWindow
  | calculate | setValues | compute | setPending | resolveAnims | setAnimValues
  | placeholders | apply | autoRemove
  | emitEvents | emitRedraw
deriving DecidableEq

/-- `A ∪ B` -/
def orSet {E : Type} (a b : E → Bool) (e : E) : Bool := a e || b e

/-- A field written where there is something new -/
def put {E V : Type} (new : E → Option V) (old : E → V) (e : E) : V := (new e).getD (old e)

/-- where there is something new -/
def news {E V : Type} (new : E → Option V) (e : E) : Bool := (new e).isSome

/-- `reset_properties` and `tick_animations` of one node (systems.rs:39-51, 1085-1101; components.rs:934-953) -/
def resets (c : Code T) (app : T.App) (w : W T) (e : T.E) : Bool := w.needsReset e || c.added app e

/-- `f` where `b` holds -/
def onSet {E V : Type} (b : E → Bool) (v : V) (old : E → V) (e : E) : V := if b e then v else old e

/-- The animations after a tick: only those of nodes that have some to be ticked -/
def ticked (c : Code T) (app : T.App) (a : T.E → T.Anim) (e : T.E) : T.Anim :=
  if c.tickable (a e) then (c.tick app (a e)).1 else a e

/-- The events after a tick -/
def tickedEvents (c : Code T) (app : T.App) (a : T.E → T.Anim) (ev : T.E → List T.Ev) (e : T.E) : List T.Ev :=
  if c.tickable (a e) then ev e ++ (c.tick app (a e)).2 else ev e

/-- more events -/
def addEvents {E V : Type} (old new : E → List V) (e : E) : List V := old e ++ new e

open Classical in
/-- Some animation is active -/
noncomputable def someActive (c : Code T) (a : T.E → T.Anim) : Bool := decide (∃ e, c.active (a e) = true)

/-- One system -/
noncomputable def run (c : Code T) (app : T.App) (w : W T) : Sys → W T
  -- `mark_as_changed_on_style_sheet_change` (systems.rs:542-613)
  | .markSheets =>
    let m := fun e => c.modified app (w.sheet e) e
    { w with
      comps := c.resetComps app w.sheet w.vals w.comps, flags := onSet m c.noFlags w.flags, vals := onSet m c.noVals w.vals,
      anim := onSet m c.noAnim w.anim, events := onSet m [] w.events, vars := onSet m c.noVars w.vars,
      needsRecalc := orSet w.needsRecalc m }
  -- `clear_global_change_detection` (383-387)
  | .clearGlobal => { w with anyChanged := false, anyActive := false }
  -- `set_window_theme_on_change_event` (202-220)
  | .windowTheme => { w with win := c.theme app w.win }
  -- `calculate_effective_style_sheet` (132-199)
  | .effectiveSheet =>
    let v := c.sheetVisited app w.sheet
    { w with
      sheet := fun e => if v e then c.sheetOf app e else w.sheet e,
      flags := onSet (fun e => v e && !c.sameSheet (w.sheet e) (c.sheetOf app e)) c.noFlags w.flags,
      dataChanged := orSet w.dataChanged v, needsRecalc := orSet w.needsRecalc v }
  -- `compute_window_media_features` (222-237)
  | .windowMediaFeatures => { w with media := c.media app w.win w.media }
  -- `sort_pseudo_elements` (53-90)
  | .sortPseudo => { w with kids := c.sort app w.kids }
  -- `sync_siblings_system` (92-130)
  | .syncSiblings => { w with sib := c.siblings app w.kids w.sib }
  -- `reset_properties` (39-51)
  | .resetProps =>
    let r := resets c app w
    { w with
      needsReset := onSet r false w.needsReset, needsRecalc := orSet w.needsRecalc r, vals := onSet r c.noVals w.vals,
      anim := onSet r c.noAnim w.anim, events := onSet r [] w.events }
  -- `tick_animations` (1085-1101)
  | .tick =>
    { w with
      anim := ticked c app w.anim, events := tickedEvents c app w.anim w.events,
      anyActive := w.anyActive || someActive c (ticked c app w.anim) }
  -- `calculate_is_root` (238-262)
  | .isRoot => { w with isRoot := put (c.rootNow app) w.isRoot, dataChanged := orSet w.dataChanged (news (c.rootNow app)) }
  -- `apply_classes` (264-271)
  | .applyClasses =>
    { w with classes := put (c.classesNow app) w.classes, dataChanged := orSet w.dataChanged (news (c.classesNow app)) }
  -- `apply_attributes` (273-279)
  | .applyAttributes =>
    { w with attrs := put (c.attrsNow app) w.attrs, dataChanged := orSet w.dataChanged (news (c.attrsNow app)) }
  -- `sync_marker_component_system` (340-362), for `Pressed`, `InteractionDisabled` and `Checked` (lib.rs:405-407)
  | .syncPressed =>
    { w with pressed := put (c.pressedNow app) w.pressed, dataChanged := orSet w.dataChanged (news (c.pressedNow app)) }
  | .syncDisabled =>
    { w with disabled := put (c.disabledNow app) w.disabled, dataChanged := orSet w.dataChanged (news (c.disabledNow app)) }
  | .syncChecked =>
    { w with checked := put (c.checkedNow app) w.checked, dataChanged := orSet w.dataChanged (news (c.checkedNow app)) }
  -- `sync_hovered_system` (364-371)
  | .syncHovered =>
    { w with hovered := put (c.hoveredNow app) w.hovered, dataChanged := orSet w.dataChanged (news (c.hoveredNow app)) }
  -- `sync_interaction_system` (373-381)
  | .syncInteraction =>
    { w with
      pressed := put (fun e => (c.interactionNow app e).map Prod.fst) w.pressed,
      hovered := put (fun e => (c.interactionNow app e).map Prod.snd) w.hovered,
      dataChanged := orSet w.dataChanged (news (c.interactionNow app)) }
  -- `track_name_changes` (281-300)
  | .trackName => { w with id := put (c.idNow app) w.id, dataChanged := orSet w.dataChanged (news (c.idNow app)) }
  -- `sync_input_focus` (302-338)
  | .syncFocus =>
    { w with
      focused := put (fun e => (c.focusNow app w.lastFocus e).map Prod.fst) w.focused,
      focusVisible := put (fun e => (c.focusNow app w.lastFocus e).map Prod.snd) w.focusVisible,
      lastFocus := c.focusSeen app w.lastFocus,
      dataChanged := orSet w.dataChanged (news (c.focusNow app w.lastFocus)) }
  -- `parse_inline_style` (css_parser inline_styles.rs:118-166)
  | .parseInline =>
    { w with inline := put (c.inlineNow app) w.inline, inlineChanged := orSet w.inlineChanged (news (c.inlineNow app)) }
  -- `set_related_nodes_for_style_recalculation` (445-484)
  | .markRelated => { w with needsRecalc := orSet w.needsRecalc (c.related app w.kids w.flags) }
  -- `mark_changed_nodes_for_recalculation` (486-540)
  | .markChanged =>
    { w with needsRecalc := orSet w.needsRecalc (c.changed app w.kids w.dataChanged w.inlineChanged w.needsReset w.needsRecalc w.flags) }
  -- `set_nodes_for_style_recalculation_on_render_target_info_change` (429-443)
  | .markTarget => { w with needsRecalc := orSet w.needsRecalc (c.targetInfo app w.flags) }
  -- `set_nodes_for_style_recalculation_on_window_media_features_change` (389-427)
  | .markWindow => { w with needsRecalc := orSet w.needsRecalc (c.windowMedia app w.media w.flags) }
  -- `calculate_style_and_set_vars` (755-838)
  | .calculate =>
    let r := c.calculate app { w with anyActive := false, anyChanged := false, anim := fun _ => c.noAnim, events := fun _ => [] }
    { w with rules := r.1, vars := r.2.1, flags := r.2.2.1, needsRecalc := orSet w.needsRecalc r.2.2.2 }
  -- `set_property_values` (841-914)
  | .setValues =>
    let r := c.setValues app { w with anyActive := false }
    { w with
      vals := r.1, anim := r.2.1, events := addEvents w.events r.2.2.1,
      needsRecalc := fun e => w.needsRecalc e && !r.2.2.2.1 e, anyChanged := w.anyChanged || r.2.2.2.2 }
  -- `compute_property_values` (1023-1083), run if `compute_property_values_condition` (916-920)
  | .compute =>
    if w.anyChanged then
      let r := c.compute app w.vals w.anim w.kids
      { w with
        vals := r.1, anim := r.2.1, events := addEvents w.events r.2.2.1, needsApply := orSet w.needsApply r.2.2.2 }
    else w
  -- `set_pending_compute_property_values` (1013-1020), run if not so
  | .setPending => if w.anyChanged then w else { w with vals := fun e => c.pending (w.vals e) }
  -- `resolve_animations` (939-988)
  | .resolveAnims =>
    let r := c.resolve app { w with anyActive := false }
    { w with anim := r.1, events := addEvents w.events r.2 }
  -- `set_animation_computed_values` (990-1010)
  | .setAnimValues =>
    let r := c.animValues app w.vals w.anim
    { w with vals := r.1, needsApply := orSet w.needsApply r.2 }
  -- `resolve_placeholders` (1128-1176)
  | .placeholders => { w with vals := c.placeholders app w.sheet w.needsApply w.vals }
  -- `apply_computed_properties` (1179-1277), with `observe_on_component_auto_inserted` (1279-1288)
  | .apply =>
    let r := c.apply app w.needsApply w.vals w.auto w.comps
    { w with vals := r.1, auto := r.2.1, comps := r.2.2, needsApply := fun _ => false }
  -- `auto_remove_components` (1290-1329), run if `auto_remove_components_condition` (922-926)
  | .autoRemove =>
    if w.anyChanged then
      let r := c.remove app w.vals w.auto w.comps
      { w with auto := r.1, comps := r.2 }
    else w
  -- `emit_animation_events` (1103-1112), `emit_pending_events` (components.rs:1047-1068)
  | .emitEvents => { w with sent := addEvents w.sent w.events, events := fun _ => [] }
  -- `emit_redraw_event` (1114-1124)
  | .emitRedraw => { w with redraw := w.redraw || c.redraw w.anim }

/-! ## The order -/

/-- The sets of `StyleSystems` (lib.rs:159-200), and the schedule `PreUpdate` -/
inductive Stage where
  | preUpdate
  | prepare | setStyleData | markNodes | calculateStyles | setPropertyValues | computeProperties | resolveAnimations
  | setAnimationValues | applyComputed | emitRedraw
  | tickAnimations | emitAnimationEvents
deriving DecidableEq

/-- The set of a system (lib.rs:315-318, 382-444) -/
def Sys.stage : Sys → Stage
  | .markSheets | .clearGlobal | .windowTheme => .preUpdate
  | .effectiveSheet | .windowMediaFeatures | .sortPseudo | .syncSiblings | .resetProps => .prepare
  | .tick => .tickAnimations
  | .isRoot | .applyClasses | .applyAttributes | .syncPressed | .syncDisabled | .syncChecked | .syncHovered
  | .syncInteraction | .trackName | .syncFocus | .parseInline => .setStyleData
  | .markRelated | .markChanged | .markTarget | .markWindow => .markNodes
  | .calculate => .calculateStyles
  | .setValues => .setPropertyValues
  | .compute | .setPending => .computeProperties
  | .resolveAnims => .resolveAnimations
  | .setAnimValues => .setAnimationValues
  | .placeholders | .apply | .autoRemove => .applyComputed
  | .emitEvents => .emitAnimationEvents
  | .emitRedraw => .emitRedraw

/-- The chain of sets (lib.rs:361-373), by position -/
def Stage.position : Stage → Option Nat
  | .preUpdate => some 0
  | .prepare => some 1
  | .setStyleData => some 2
  | .markNodes => some 3
  | .calculateStyles => some 4
  | .setPropertyValues => some 5
  | .computeProperties => some 6
  | .resolveAnimations => some 7
  | .setAnimationValues => some 8
  | .applyComputed => some 9
  | .emitRedraw => some 10
  | .tickAnimations => none
  | .emitAnimationEvents => none

/-- What is demanded of sets: the chain (361-373), `TickAnimations.before(SetPropertyValues)` (374),
`EmitAnimationEvents.after(SetAnimationValues)` (375); `PreUpdate` runs before `PostUpdate` -/
def Stage.before (s t : Stage) : Bool :=
  match s.position, t.position with
  | some i, some j => decide (i < j)
  | some i, none => i == 0 || (t == .emitAnimationEvents && decide (i ≤ 8))
  | none, some j => s == .tickAnimations && decide (5 ≤ j)
  | none, none => s == .tickAnimations && t == .emitAnimationEvents

/-- The chains inside of sets (lib.rs:397, 414-423, 436-443) -/
def chained : Sys → Sys → Bool
  | .sortPseudo, .syncSiblings => true
  | .markRelated, .markChanged | .markRelated, .markTarget | .markRelated, .markWindow => true
  | .markChanged, .markTarget | .markChanged, .markWindow => true
  | .placeholders, .apply | .placeholders, .autoRemove | .apply, .autoRemove => true
  | _, _ => false

/-- `s` has to run before `t` -/
def before (s t : Sys) : Bool := s.stage.before t.stage || chained s t

/-- The systems one after the other -/
noncomputable def frame (c : Code T) (app : T.App) (order : List Sys) (w : W T) : W T := order.foldl (run c app) w

end Flair.Schedule
