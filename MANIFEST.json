{
 "claims": [
  {
   "property": "C01",
   "status": "proved",
   "theorems": [
    "Flair.Props.C01_layer_order",
    "Flair.Props.C01_layer_order_total"
   ],
   "note": ""
  },
  {
   "property": "C02",
   "status": "proved",
   "theorems": [
    "Flair.Props.C02_define_monotone"
   ],
   "note": ""
  },
  {
   "property": "C07",
   "status": "proved",
   "theorems": [
    "Flair.Props.C07_resolve_exact",
    "Flair.Props.C07_resolve_succeeds_iff",
    "Flair.Props.C07_resolve_errors_truthful",
    "Flair.Props.C07_cycle_is_error",
    "Flair.Props.C07_subst_functional"
   ],
   "note": ""
  },
  {
   "property": "C06",
   "status": "proved",
   "theorems": [
    "Flair.Props.C06_nearest_definition",
    "Flair.Props.C06_nearest_unique"
   ],
   "note": ""
  },
  {
   "property": "C14",
   "status": "proved",
   "theorems": [
    "Flair.Props.C14_compute_spec",
    "Flair.Props.C14_compute_total",
    "Flair.Props.C14_unset_of_unset_panics"
   ],
   "note": "Registered unset behaviour must not be `unset` itself; C14_unset_of_unset_panics shows the code panics otherwise."
  },
  {
   "property": "C15",
   "status": "proved",
   "theorems": [
    "Flair.Props.C15_tree_inheritance"
   ],
   "note": ""
  },
  {
   "property": "C16",
   "status": "partial",
   "theorems": [
    "Flair.Props.C16_follow_parent_partial",
    "Flair.Props.C16_unset_is_stale"
   ],
   "note": "The full property is false for the code: C16_unset_is_stale proves its negation (explicit `unset` on an inherited property is not refreshed). Proved for all histories without such declarations."
  },
  {
   "property": "C17",
   "status": "proved",
   "theorems": [
    "Flair.Props.C17_descendants",
    "Flair.Props.C17_descendants_unique",
    "Flair.Props.C17_ancestors"
   ],
   "note": ""
  },
  {
   "property": "C18",
   "status": "proved",
   "theorems": [
    "Flair.Props.C18_value_semantics",
    "Flair.Props.C18_no_panic"
   ],
   "note": ""
  },
  {
   "property": "C03",
   "status": "proved",
   "theorems": [
    "Flair.Props.C03_cascade",
    "Flair.Props.C03_cascade_unique",
    "Flair.Props.C03_views_exist"
   ],
   "note": ""
  },
  {
   "property": "C04",
   "status": "proved",
   "theorems": [
    "Flair.Props.C04_failed_declaration"
   ],
   "note": ""
  },
  {
   "property": "C05",
   "status": "proved",
   "theorems": [
    "Flair.Props.C05_vars_cascade"
   ],
   "note": ""
  },
  {
   "property": "C08",
   "status": "proved",
   "theorems": [
    "Flair.Props.C08_remove_empty",
    "Flair.Props.C08_in_range"
   ],
   "note": ""
  },
  {
   "property": "C09",
   "status": "proved",
   "theorems": [
    "Flair.Props.C09_import_in_place"
   ],
   "note": "Up to the `@layer` statements of the imported sheet (see C10)."
  },
  {
   "property": "C10",
   "status": "partial",
   "theorems": [
    "Flair.Props.C10_import_layer_order_partial",
    "Flair.Props.C10_import_reorders_layers"
   ],
   "note": "The full property is false for the code: C10_import_reorders_layers proves its negation (`@layer` statements of an imported sheet are lost). Proved for imported sheets without such statements."
  },
  {
   "property": "C11",
   "status": "proved",
   "theorems": [
    "Flair.Props.C11_document_order",
    "Flair.Props.C11_views_exist"
   ],
   "note": ""
  },
  {
   "property": "C12",
   "status": "partial",
   "theorems": [
    "Flair.Props.C12_errors_isolated_partial"
   ],
   "note": "for errors that can be reported; an error whose report panics takes down the whole load (C82, C97)"
  },
  {
   "property": "C13",
   "status": "proved",
   "theorems": [
    "Flair.Props.C13_conjunction",
    "Flair.Props.C13_enclosing",
    "Flair.Props.C11_document_order"
   ],
   "note": "C11_document_order attaches to every declaration the conditions it is nested in"
  },
  {
   "property": "C57",
   "status": "partial",
   "theorems": [
    "Flair.Props.C57_order_partial",
    "Flair.Props.C57_cascade_partial",
    "Flair.Props.C57_empty_block_nothing",
    "Flair.Props.C57_empty_block_ignored"
   ],
   "note": "False for the code: C57_empty_block_ignored proves the negation (a block without rules declares nothing). Proved when every block contains a rule, a @layer statement or such a block, at any depth."
  },
  {
   "property": "C19",
   "status": "partial",
   "theorems": [
    "Flair.Props.C19_effective_sheet_partial",
    "Flair.Props.C19_effective_exists",
    "Flair.Props.C19_stale_after_move"
   ],
   "note": "The full property is false for the code: C19_stale_after_move proves its negation (a re-parented entity keeps the old sheet). Proved for histories in which moved entities also have their sheet component touched."
  },
  {
   "property": "C20",
   "status": "partial",
   "theorems": [
    "Flair.Props.C20_neighbours",
    "Flair.Props.C20_siblings_partial",
    "Flair.Props.C20_orphan_stale"
   ],
   "note": "Proved in full for entities with a parent (C20_neighbours). False for entities that lost their parent: C20_orphan_stale proves the negation."
  },
  {
   "property": "C21",
   "status": "proved",
   "theorems": [
    "Flair.Props.C21_pseudo_elements"
   ],
   "note": ""
  },
  {
   "property": "C22",
   "status": "partial",
   "theorems": [
    "Flair.Props.C22_focus_partial",
    "Flair.Props.C22_late_style"
   ],
   "note": "The full property is false for the code: C22_late_style proves its negation (an entity styled while already focused never gets :focus). Proved for all histories in which no entity gets style data while it is focused and stays focused."
  },
  {
   "property": "C23",
   "status": "proved",
   "theorems": [
    "Flair.Props.C23_class_list",
    "Flair.Props.C23_toggle_twice",
    "Flair.Props.C23_text_roundtrip",
    "Flair.Props.C23_text_words"
   ],
   "note": ""
  },
  {
   "property": "C56",
   "status": "proved",
   "theorems": [
    "Flair.Props.C56_marks_kept",
    "Flair.Props.C56_reset_first"
   ],
   "note": ""
  },
  {
   "property": "C58",
   "status": "partial",
   "theorems": [
    "Flair.Props.C58_marker_states_partial",
    "Flair.Props.C58_marker_late",
    "Flair.Props.C58_classes_late",
    "Flair.Props.C58_name_partial",
    "Flair.Props.C58_name_lost",
    "Flair.Props.C58_classes_partial",
    "Flair.Props.C58_classes_kept"
   ],
   "note": "Proved for the marker states, except that a marker already present when the entity gets its style data is never seen (C58_marker_late); the same holds for classes (C58_classes_late). False for the id (C58_name_lost: Name removed and re-inserted in one frame) and for classes/attributes (C58_classes_kept: component removed); proved outside these cases."
  },
  {
   "property": "C24",
   "status": "proved",
   "theorems": [
    "Flair.Props.C24_phase",
    "Flair.Props.C24_phase_new",
    "Flair.Props.C24_over",
    "Flair.Props.C24_cancel"
   ],
   "note": ""
  },
  {
   "property": "C25",
   "status": "proved",
   "theorems": [
    "Flair.Props.C25_progress",
    "Flair.Props.C25_value",
    "Flair.Props.C25_value_before",
    "Flair.Props.C25_monotone"
   ],
   "note": ""
  },
  {
   "property": "C26",
   "status": "partial",
   "theorems": [
    "Flair.Props.C26_proportional",
    "Flair.Props.C26_no_panic_partial",
    "Flair.Props.C26_toggle_panics"
   ],
   "note": "Proportionality proved for every chain of reversals. 'Nothing panics' is false: C26_toggle_panics (a delayed transition toggled twice within its delay divides by zero and panics); proved for non-zero durations."
  },
  {
   "property": "C59",
   "status": "partial",
   "theorems": [
    "Flair.Props.C59_transition_partial",
    "Flair.Props.C59_overshoot",
    "Flair.Props.C59_animation_partial",
    "Flair.Props.C59_animation_zero_duration"
   ],
   "note": "False for the code: C59_overshoot (a timing function that leaves [0,1] makes an active transition yield nothing), C59_animation_zero_duration (animation of duration 0). Proved for transitions with timing functions into [0,1] and animations with a duration."
  },
  {
   "property": "C60",
   "status": "partial",
   "theorems": [
    "Flair.Props.C60_reversal_partial",
    "Flair.Props.C60_retarget_jumps"
   ],
   "note": "False for the code: C60_retarget_jumps (a new target other than the start value makes the transition start from the old target). Proved for reversals."
  },
  {
   "property": "C27",
   "status": "partial",
   "theorems": [
    "Flair.Props.C27_life_cycle",
    "Flair.Props.C27_functional",
    "Flair.Props.C27_tick_functional",
    "Flair.Props.C27_zero_count",
    "Flair.Props.C27_diverges",
    "Flair.Props.C27_not_always_returns"
   ],
   "note": "'Ticking always returns' is false: C27_diverges (infinite animation of duration 0). Everything else is proved."
  },
  {
   "property": "C28",
   "status": "proved",
   "theorems": [
    "Flair.Props.C28_direction",
    "Flair.Props.C27_life_cycle",
    "Flair.Props.C29_value"
   ],
   "note": "the direction part of AnimAt and of animValue (positionAt)"
  },
  {
   "property": "C29",
   "status": "partial",
   "theorems": [
    "Flair.Props.C29_value",
    "Flair.Props.C29_canceled_partial",
    "Flair.Props.C29_canceled_yields"
   ],
   "note": "'A cancelled animation yields none' is false: C29_canceled_yields. Proved for everything else, and for cancelled ones without fill."
  },
  {
   "property": "C30",
   "status": "proved",
   "theorems": [
    "Flair.Props.C30_paused",
    "Flair.Props.C30_resume"
   ],
   "note": "An animation that never ran and has no delay starts running at time 0 on its first (paused) tick; time does not advance."
  },
  {
   "property": "C61",
   "status": "proved",
   "theorems": [
    "Flair.Props.C61_history",
    "Flair.Props.C61_value",
    "Flair.Props.C61_returns",
    "Flair.Props.C61_update_returns"
   ],
   "note": ""
  },
  {
   "property": "C31",
   "status": "partial",
   "theorems": [
    "Flair.Props.C31_transitions",
    "Flair.Props.C31_animations_partial",
    "Flair.Props.C31_stalled"
   ],
   "note": "Proved for transitions, and for animations when none of the node's animations is over. False in general: C31_stalled (a finished animation stops the ticking of those after it, F2)."
  },
  {
   "property": "C32",
   "status": "partial",
   "theorems": [
    "Flair.Props.C32_none_finished",
    "Flair.Props.C32_finished",
    "Flair.Props.C32_canceled_partial",
    "Flair.Props.C32_stuck"
   ],
   "note": "Proved for finished transitions; for cancelled ones when something else of the node can still be ticked. False in general: C32_stuck (a cancelled transition masks the computed value for ever, F8)."
  },
  {
   "property": "C33",
   "status": "partial",
   "theorems": [
    "Flair.Props.C33_write_iff",
    "Flair.Props.C33_shows_partial",
    "Flair.Props.C33_stale"
   ],
   "note": "Proved for histories of calm frames (a transition is created only where no animation was showing). False in general: C33_stale (F11)."
  },
  {
   "property": "C53",
   "status": "partial",
   "theorems": [
    "Flair.Props.C53_transitions_partial",
    "Flair.Props.C53_replaced_after_canceled",
    "Flair.Props.C53_animation_partial",
    "Flair.Props.C53_cancel_events",
    "Flair.Props.C53_canceled_after_finished",
    "Flair.Props.C53_started_twice"
   ],
   "note": "Proved for histories in which no cancelled transition is replaced, and for animations without option changes. False in general: C53_replaced_after_canceled, C53_canceled_after_finished, C53_started_twice (F8, F32)."
  },
  {
   "property": "C34",
   "status": "proved",
   "theorems": [
    "Flair.Props.C34_normalised",
    "Flair.Props.C34_declared",
    "Flair.Props.C34_merged",
    "Flair.Props.C34_exact",
    "Flair.Props.C34_block",
    "Flair.Props.C36_block"
   ],
   "note": ""
  },
  {
   "property": "C35",
   "status": "proved",
   "theorems": [
    "Flair.Props.C35_filled",
    "Flair.Props.C35_ignored_iff",
    "Flair.Props.C35_no_panic",
    "Flair.Props.C35_block",
    "Flair.Props.C36_block"
   ],
   "note": "For interpolations that are straight (Spec.Straight); linear interpolation is."
  },
  {
   "property": "C36",
   "status": "proved",
   "theorems": [
    "Flair.Props.C36_hits",
    "Flair.Props.C36_between",
    "Flair.Props.C36_outside",
    "Flair.Props.C36_block"
   ],
   "note": "bevy_math's UnevenCore is modelled from its documentation."
  },
  {
   "property": "C37",
   "status": "proved",
   "theorems": [
    "Flair.Props.C37_animation",
    "Flair.Props.C37_animation_names",
    "Flair.Props.C37_transition"
   ],
   "note": ""
  },
  {
   "property": "C38",
   "status": "proved",
   "theorems": [
    "Flair.Props.C38_animation",
    "Flair.Props.C38_transition",
    "Flair.Props.C38_shorthand_resets",
    "Flair.Props.C38_longhand_overrides"
   ],
   "note": ""
  },
  {
   "property": "C54",
   "status": "proved",
   "theorems": [
    "Flair.Props.C54_options",
    "Flair.Props.C54_shorthand"
   ],
   "note": ""
  },
  {
   "property": "C62",
   "status": "partial",
   "theorems": [
    "Flair.Props.C62_transition",
    "Flair.Props.C62_transition_only",
    "Flair.Props.C62_animation_only",
    "Flair.Props.C62_animation_partial",
    "Flair.Props.C62_animations_partial",
    "Flair.Props.C62_rejected",
    "Flair.Props.C62_misread"
   ],
   "note": "Transition: all orders. Animation: only when a play state is followed by a timing function, the name or the end. False in general: C62_rejected, C62_misread (F34)."
  },
  {
   "property": "C39",
   "status": "proved",
   "theorems": [
    "Flair.Props.C39_ids",
    "Flair.Props.C39_ranges",
    "Flair.Props.C39_disjoint",
    "Flair.Props.C39_succeeds_iff",
    "Flair.Props.C39_initial",
    "Flair.Props.C39_unset"
   ],
   "note": ""
  },
  {
   "property": "C40",
   "status": "partial",
   "theorems": [
    "Flair.Props.C40_rejected_partial",
    "Flair.Props.C40_unambiguous_partial",
    "Flair.Props.C40_resolves_partial",
    "Flair.Props.C40_clash"
   ],
   "note": "Proved when all properties are registered before the shorthands (what the library's plugins do). False in general: C40_clash (F12)."
  },
  {
   "property": "C41",
   "status": "proved",
   "theorems": [
    "Flair.Props.C41_present",
    "Flair.Props.C41_absent",
    "Flair.Props.C41_others"
   ],
   "note": "For values of the property's type (an ApplyError stops the component's remaining properties)."
  },
  {
   "property": "C42",
   "status": "partial",
   "theorems": [
    "Flair.Props.C42_removal_partial",
    "Flair.Props.C42_user_stays_partial",
    "Flair.Props.C42_user_component_removed"
   ],
   "note": "Proved when the user leaves style-inserted components alone. False in general: C42_user_component_removed (F36)."
  },
  {
   "property": "C44",
   "status": "partial",
   "theorems": [
    "Flair.Props.C44_accepted",
    "Flair.Props.C44_length",
    "Flair.Props.C44_same_unit",
    "Flair.Props.C44_mixed",
    "Flair.Props.C44_number_partial",
    "Flair.Props.C44_number_subtraction",
    "Flair.Props.C44_angle_partial",
    "Flair.Props.C44_angle_half",
    "Flair.Props.C44_no_crash_partial",
    "Flair.Props.C44_crash"
   ],
   "note": "Lengths: full. False for numbers with subtraction (F13), for angles multiplied by non-integers (F15), and the parser panics when values follow each other (F14)."
  },
  {
   "property": "C45",
   "status": "proved",
   "theorems": [
    "Flair.Props.C45_box_values",
    "Flair.Props.C45_only_box_values",
    "Flair.Props.C45_border_width_names",
    "Flair.Props.C45_width_names_alone"
   ],
   "note": "all five box shorthands; color and grid parsers are parameters"
  },
  {
   "property": "C46",
   "status": "partial",
   "theorems": [
    "Flair.Props.C46_direct",
    "Flair.Props.C46_via_variable_partial",
    "Flair.Props.C46_via_variable_fails"
   ],
   "note": "direct: every shorthand. Through a variable: holds for exactly seven of the twenty defaults, proved to fail for the other thirteen (as_dynamic_parse_var_tokens does not look for the keyword)"
  },
  {
   "property": "C47",
   "status": "partial",
   "theorems": [
    "Flair.Props.C47_overflow",
    "Flair.Props.C47_gap_single",
    "Flair.Props.C47_gap_swapped",
    "Flair.Props.C47_place_items_pair",
    "Flair.Props.C47_place_items_single"
   ],
   "note": "overflow holds; gap with two values is proved to set column-gap from the first (CSS: row-gap), place-items with one value is proved to leave justify-items unset"
  },
  {
   "property": "C63",
   "status": "proved",
   "theorems": [
    "Flair.Props.C63_only_its_longhands",
    "Flair.Props.C63_names"
   ],
   "note": ""
  },
  {
   "property": "C64",
   "status": "partial",
   "theorems": [
    "Flair.Props.C64_no_crash_partial",
    "Flair.Props.C64_longhands_partial",
    "Flair.Props.C64_transform_none",
    "Flair.Props.C64_calc_crash"
   ],
   "note": "proved for all shorthands and longhands and all texts in which the values inside calc() and parentheses have operators between them, except transform: none, which is proved to crash, as is a calc() with values that follow each other"
  },
  {
   "property": "C65",
   "status": "partial",
   "theorems": [
    "Flair.Props.C65_sets_all_partial",
    "Flair.Props.C65_leaves_some",
    "Flair.Props.C47_place_items_single"
   ],
   "note": "holds for nine of the twenty defaults; for each of the others a text is exhibited that leaves a longhand as it was"
  },
  {
   "property": "C66",
   "status": "proved",
   "theorems": [
    "Flair.Props.C66_transform",
    "Flair.Props.C66_only_transforms"
   ],
   "note": "angles in rad are not modelled"
  },
  {
   "property": "C67",
   "status": "proved",
   "theorems": [
    "Flair.Props.C67_flex",
    "Flair.Props.C67_only_flex"
   ],
   "note": ""
  },
  {
   "property": "C68",
   "status": "proved",
   "theorems": [
    "Flair.Props.C68_animations",
    "Flair.Props.C68_transitions"
   ],
   "note": "for every reading of the declarations; composes C03's cascade with C38"
  },
  {
   "property": "C43",
   "status": "partial",
   "theorems": [
    "Flair.Props.C43_histories_partial",
    "Flair.Props.C43_selectors_partial",
    "Flair.Props.C43_matching",
    "Flair.Props.C43_adjacent_descendant_stale",
    "Flair.Props.C43_has_second_child_stale",
    "Flair.Props.C43_reset_stale"
   ],
   "note": "holds for every history when sibling combinators stand only between the last compounds and a tree shares one sheet; proved false for 'A + B C', for :has() on a child that is not the first, and after a reset of only part of a tree. The hierarchy is fixed; the selectors crate is an arbitrary program over the Element interface"
  },
  {
   "property": "C48",
   "status": "proved",
   "theorems": [
    "Flair.Props.C48_ops",
    "Flair.Props.C48_get",
    "Flair.Props.C48_get_untouched",
    "Flair.Props.C48_parse",
    "Flair.Props.C48_parse_total",
    "Flair.Props.C48_text_round_trip",
    "Flair.Props.C48_semicolon_in_string"
   ],
   "note": "declarations are split at semicolons also inside strings, as C48_semicolon_in_string shows"
  },
  {
   "property": "C49",
   "status": "partial",
   "theorems": [
    "Flair.Props.C49_independent_partial",
    "Flair.Props.C49_run",
    "Flair.Props.C49_others_lost"
   ],
   "note": "proved false: a parse problem (even an !important) ends the system, so entities visited later lose their update until written again; holds when no style has a problem"
  },
  {
   "property": "C69",
   "status": "partial",
   "theorems": [
    "Flair.Props.C69_clear_partial",
    "Flair.Props.C69_removal_ignored"
   ],
   "note": "proved false for removing the component: the parsed rules stay; holds for writing an empty inline style"
  },
  {
   "property": "C50",
   "status": "partial",
   "theorems": [
    "Flair.Props.C50_read",
    "Flair.Props.C50_resolved_text_partial",
    "Flair.Props.C50_literal_partial",
    "Flair.Props.C50_quote_lost",
    "Flair.Props.C50_escape_lost",
    "Flair.Props.C50_exponent_unit_lost"
   ],
   "note": "for values and variables written without backslash, strings without double quotes and units that do not begin like an exponent; proved false for each of the three excluded cases. Percentages are compared after one more rounding; the tokenizer (crate cssparser) is modelled after CSS Syntax 3"
  },
  {
   "property": "C51",
   "status": "proved",
   "theorems": [
    "Flair.Props.C51_linear_completed",
    "Flair.Props.C51_unique"
   ],
   "note": "over rational numbers (f32 rounding is not modelled); the specification has exactly one solution"
  },
  {
   "property": "C55",
   "status": "partial",
   "theorems": [
    "Flair.Props.C55_steps",
    "Flair.Props.C55_step_defaults",
    "Flair.Props.C55_linear_partial",
    "Flair.Props.C55_linear_drawn",
    "Flair.Props.C55_linear_identity",
    "Flair.Props.C55_jump_lost",
    "Flair.Props.C55_single_point_wrong",
    "Flair.Props.C55_invalid_steps_accepted"
   ],
   "note": "steps() proved in full; linear() proved for strictly increasing positions from 0 to 1, proved false for two points at one position (the jump is lost) and for a single point. cubic-bezier() is C98"
  },
  {
   "property": "C52",
   "status": "partial",
   "theorems": [
    "Flair.Props.C52_linear",
    "Flair.Props.C52_incompatible",
    "Flair.Props.C52_ends_partial",
    "Flair.Props.C52_on_partial",
    "Flair.Props.C52_transition_partial",
    "Flair.Props.C52_straight",
    "Flair.Props.C52_auto_zero"
   ],
   "note": "proved false between auto and zero (the way from 0 starts at auto, the way to 0 ends at auto); everything else holds, over rational numbers"
  },
  {
   "property": "C70",
   "status": "partial",
   "theorems": [
    "Flair.Props.C70_plain",
    "Flair.Props.C70_plain_linear",
    "Flair.Props.C70_rotation",
    "Flair.Props.C70_shadows_partial",
    "Flair.Props.C70_gradient_partial",
    "Flair.Props.C70_gradients_partial",
    "Flair.Props.C70_members_partial",
    "Flair.Props.C70_gradient_members_partial",
    "Flair.Props.C70_stays",
    "Flair.Props.C70_lengths_differ",
    "Flair.Props.C70_kinds_differ"
   ],
   "note": "proved false when the lists have different lengths or the gradients different kinds: the first value is shown also at the end. Colors are taken as their Oklab components"
  },
  {
   "property": "C71",
   "status": "partial",
   "theorems": [
    "Flair.Props.C71_no_fill_partial",
    "Flair.Props.C71_removed_partial",
    "Flair.Props.C71_stuck"
   ],
   "note": "proved for animations without fill, and when something on the node still runs; false in general (C71_stuck): a backwards-filling animation removed during its delay, with nothing else running, shows its first keyframe for ever"
  },
  {
   "property": "C72",
   "status": "proved",
   "theorems": [
    "Flair.Props.C72_length",
    "Flair.Props.C72_number",
    "Flair.Props.C72_angle"
   ],
   "note": "angles in rad are not modelled (a radian is no rational part of a turn)"
  },
  {
   "property": "C73",
   "status": "partial",
   "theorems": [
    "Flair.Props.C73_border",
    "Flair.Props.C73_only_border",
    "Flair.Props.C73_outline",
    "Flair.Props.C73_only_outline",
    "Flair.Props.C73_outline_style_rejected",
    "Flair.Props.C73_background",
    "Flair.Props.C73_background_image",
    "Flair.Props.C73_background_none_rejected",
    "Flair.Props.C73_grid_template",
    "Flair.Props.C73_grid",
    "Flair.Props.C73_grid_none_rejected",
    "Flair.Props.C73_colors"
   ],
   "note": "exact grammars proved; proved not to be those of CSS: an outline with a style, none as a background, and none for the rows or columns of a grid alone are rejected. The parsers of colors (for which C73_colors shows the assumptions), images, gradients and tracks are parameters"
  },
  {
   "property": "C74",
   "status": "partial",
   "theorems": [
    "Flair.Props.C74_number_pair",
    "Flair.Props.C74_length_pair",
    "Flair.Props.C74_rect",
    "Flair.Props.C74_aspect_ratio",
    "Flair.Props.C74_clip_margin",
    "Flair.Props.C74_z_index",
    "Flair.Props.C74_z_index_auto",
    "Flair.Props.C74_box_shadow",
    "Flair.Props.C74_box_shadow_none",
    "Flair.Props.C74_text_shadow",
    "Flair.Props.C74_line_height",
    "Flair.Props.C74_image_mode",
    "Flair.Props.C74_colors"
   ],
   "note": "exact grammars proved; proved not to be those of CSS: z-index: auto and box-shadow: none are rejected. The color parser is a parameter; that of C93 meets what is asked of it (C74_colors)"
  },
  {
   "property": "C75",
   "status": "partial",
   "theorems": [
    "Flair.Props.C75_auto_tracks",
    "Flair.Props.C75_template_tracks",
    "Flair.Props.C75_repetitions_wrap",
    "Flair.Props.C75_repetitions_partial",
    "Flair.Props.C75_placement",
    "Flair.Props.C75_fits_shorthands"
   ],
   "note": "exact grammars proved; proved false for the number of repetitions: only its low sixteen bits are kept, and zero and negative numbers are accepted"
  },
  {
   "property": "C76",
   "status": "proved",
   "theorems": [
    "Flair.Props.C76_keywords",
    "Flair.Props.C76_listed",
    "Flair.Props.C76_listed_accepted"
   ],
   "note": "variants with ASCII names"
  },
  {
   "property": "C77",
   "status": "partial",
   "theorems": [
    "Flair.Props.C77_gradient",
    "Flair.Props.C77_gradients",
    "Flair.Props.C77_circle_alone",
    "Flair.Props.C77_vertical_first",
    "Flair.Props.C77_conic_wraps",
    "Flair.Props.C77_negative_first",
    "Flair.Props.C77_colors"
   ],
   "note": "exact grammar and meaning proved; proved not to be those of CSS: circle or ellipse without a size and a position with the vertical part first are rejected, angles of conic stops are wrapped to half a turn, and a first stop before zero gets one at zero in front. The color parser is a parameter (that of C93 meets what is asked of it, C77_colors); angles in rad are not modelled"
  },
  {
   "property": "C78",
   "status": "partial",
   "theorems": [
    "Flair.Props.C78_media_follow_partial",
    "Flair.Props.C78_camera_later",
    "Flair.Props.C78_no_target"
   ],
   "note": "proved for every history in which cameras stay where they are; proved false when a node gets its camera later or another one; rules with media conditions never apply to nodes without camera and target info"
  },
  {
   "property": "C79",
   "status": "proved",
   "theorems": [
    "Flair.Props.C79_media_query",
    "Flair.Props.C79_no_types",
    "Flair.Props.C79_no_comparison"
   ],
   "note": "both directions of the grammar; ASCII case is taken as folded by the tokenizer"
  },
  {
   "property": "C80",
   "status": "partial",
   "theorems": [
    "Flair.Props.C80_values_follow_partial",
    "Flair.Props.C80_moved_subtree",
    "Flair.Props.C80_other_sheet",
    "Flair.Props.C80_keyframes"
   ],
   "note": "proved for every history in which only leaves are moved or added and modified sheets are those of whole subtrees; proved false for moved subtrees and for a modified sheet of a part of a subtree; keyframes do not follow variables"
  },
  {
   "property": "C81",
   "status": "partial",
   "theorems": [
    "Flair.Props.C81_direct_values",
    "Flair.Props.C81_no_names_left",
    "Flair.Props.C81_bad_source",
    "Flair.Props.C81_imported",
    "Flair.Props.C81_elements_partial",
    "Flair.Props.C81_two_sheets",
    "Flair.Props.C81_import_cannot_use",
    "Flair.Props.C81_unknown_family_hides",
    "Flair.Props.C81_one_bad_source"
   ],
   "note": "sheets and imports proved in full; elements proved for all histories when they are under one sheet; proved false with two sheets, and negations for what CSS would do with unknown families"
  },
  {
   "property": "C82",
   "status": "partial",
   "theorems": [
    "Flair.Props.C82_no_crash_partial",
    "Flair.Props.C82_no_crash_inline_partial",
    "Flair.Props.C82_name_crashes",
    "Flair.Props.C82_crashing_name",
    "Flair.Props.C82_layer_crashes",
    "Flair.Props.C82_crashes",
    "Flair.Props.C82_font_face_crashes",
    "Flair.Props.C82_keyframes_crashes",
    "Flair.Props.C82_empty_crashes"
   ],
   "note": "proved for all files with harmless names, any errors and imports; proved false for names with a character across the 9th or 10th byte and for layers whose name starts with a dot, for incomplete @font-face, for two @keyframes of one name, and for unknown animation-/transition- properties with an empty value; located errors are taken to be reportable (C97)"
  },
  {
   "property": "C83",
   "status": "proved",
   "theorems": [
    "Flair.Props.C83_animations",
    "Flair.Props.C83_fonts",
    "Flair.Props.C83_unique",
    "Flair.Props.C83_loads"
   ],
   "note": "value parsers are parameters; the builder of keyframes is C34"
  },
  {
   "property": "C84",
   "status": "partial",
   "theorems": [
    "Flair.Props.C84_unique",
    "Flair.Props.C84_loads_iff",
    "Flair.Props.C84_no_cycle",
    "Flair.Props.C84_cycle_never_loads",
    "Flair.Props.C84_ends",
    "Flair.Props.C84_never_ends",
    "Flair.Props.C84_failed_import",
    "Flair.Props.C84_mode_not_passed"
   ],
   "note": "exact for all graphs of imports; proved false for cycles, which never end; the error mode does not reach imports"
  },
  {
   "property": "C85",
   "status": "partial",
   "theorems": [
    "Flair.Props.C85_upwards_partial",
    "Flair.Props.C85_edge_first_partial",
    "Flair.Props.C85_matching",
    "Flair.Props.C85_first_child_stale",
    "Flair.Props.C85_sibling_stale"
   ],
   "note": "proved for all histories for selectors with child and descendant combinators and `:empty`; with sibling combinators, `:first-child`, `:last-child` proved false in general, and true when every sheet starts with an edge selector"
  },
  {
   "property": "C86",
   "status": "partial",
   "theorems": [
    "Flair.Props.C86_properties_apart",
    "Flair.Props.C86_read",
    "Flair.Props.C86_apply_partial",
    "Flair.Props.C86_order",
    "Flair.Props.C86_refines",
    "Flair.Props.C86_apply_false",
    "Flair.Props.C86_nested_self_false"
   ],
   "note": "exact when no list in a value is shorter than the one it replaces (or lists are cut); otherwise proved false; a nested @self type is outside of the declarations covered and proved wrong"
  },
  {
   "property": "C87",
   "status": "proved",
   "theorems": [
    "Flair.Props.C87_build",
    "Flair.Props.C87_names",
    "Flair.Props.C87_distinct",
    "Flair.Props.C87_inherited",
    "Flair.Props.C87_declaration",
    "Flair.Props.C87_unknown",
    "Flair.Props.C87_shorthand_declaration",
    "Flair.Props.C87_shorthand_resolves",
    "Flair.Props.C87_finish",
    "Flair.Props.C87_apart"
   ],
   "note": "the tables are data of the model, taken over entry by entry from impls.rs and reflect.rs"
  },
  {
   "property": "C88",
   "status": "partial",
   "theorems": [
    "Flair.Props.C88_time",
    "Flair.Props.C88_time_crash",
    "Flair.Props.C88_crash_false",
    "Flair.Props.C88_time_false",
    "Flair.Props.C88_count",
    "Flair.Props.C88_count_false",
    "Flair.Props.C88_words",
    "Flair.Props.C88_timing",
    "Flair.Props.C88_timing_false",
    "Flair.Props.C88_animation_longhand",
    "Flair.Props.C88_transition_longhand",
    "Flair.Props.C88_longhand_own",
    "Flair.Props.C88_inherit_false",
    "Flair.Props.C88_important_dropped",
    "Flair.Props.C88_animation_sound",
    "Flair.Props.C88_animation_accepts_partial",
    "Flair.Props.C88_transition_sound",
    "Flair.Props.C88_transition_accepts",
    "Flair.Props.C88_empty_false",
    "Flair.Props.C88_no_crash",
    "Flair.Props.C88_other_names",
    "Flair.Props.C88_variables"
   ],
   "note": "longhands are exact; the animation shorthand accepts only well formed texts, and all of them when a play state is followed by a timing function, a name or the end (else false, C62) and names are no keywords; crash freedom is false for huge seconds (C88_crash_false) and otherwise proved"
  },
  {
   "property": "C89",
   "status": "partial",
   "theorems": [
    "Flair.Props.C89_exact_partial",
    "Flair.Props.C89_static",
    "Flair.Props.C89_longhand_partial",
    "Flair.Props.C89_in_place_partial",
    "Flair.Props.C89_shorthand_partial",
    "Flair.Props.C89_tidy_longhand_partial",
    "Flair.Props.C89_tidy_shorthand_partial",
    "Flair.Props.C89_parentheses_false",
    "Flair.Props.C89_fallback_false",
    "Flair.Props.C89_operator_crash",
    "Flair.Props.C89_important_variable_false"
   ],
   "note": "The value is proved to be exactly that of the replaced text, for all longhand parsers and all 20 shorthands, when the text has no blocks in parentheses or brackets, variables nest at most seven deep (C15/C50) and loading does not crash, which is proved when values in calc() have operators between them; the exceptions are proved (F73). Global keywords that come from a variable into a shorthand are C46."
  },
  {
   "property": "C90",
   "status": "partial",
   "theorems": [
    "Flair.Props.C90_every_partial",
    "Flair.Props.C90_exact_partial",
    "Flair.Props.C90_pseudo_partial",
    "Flair.Props.C90_states",
    "Flair.Props.C90_pseudo_names",
    "Flair.Props.C90_root",
    "Flair.Props.C90_first_child_false",
    "Flair.Props.C90_empty_false",
    "Flair.Props.C90_universal_false",
    "Flair.Props.C90_pipe_crashes"
   ],
   "note": "exact for all selectors without a bare | on hierarchies without pseudo elements, and with pseudo elements for selectors that look neither at siblings nor at children; proved false otherwise (::before and ::after count as elements), and a bare | is proved to crash. The matcher of the crate selectors is modelled after its documentation"
  },
  {
   "property": "C91",
   "status": "partial",
   "theorems": [
    "Flair.Props.C91_markers_partial",
    "Flair.Props.C91_interaction_partial",
    "Flair.Props.C91_pressed_not_hovered",
    "Flair.Props.C91_both_sources",
    "Flair.Props.C91_removed"
   ],
   "note": "proved for nodes without Interaction when Hovered is not removed, and for nodes with only Interaction except that a pressed node is not :hover; proved false otherwise"
  },
  {
   "property": "C92",
   "status": "partial",
   "theorems": [
    "Flair.Props.C92_once_partial",
    "Flair.Props.C92_twice_crashes",
    "Flair.Props.C92_early_lost"
   ],
   "note": "proved when the name is inserted once, with or after the style data; proved false otherwise: a second insertion crashes, an early one is lost"
  },
  {
   "property": "C93",
   "status": "partial",
   "theorems": [
    "Flair.Props.C93_one_meaning",
    "Flair.Props.C93_accepted",
    "Flair.Props.C93_shown_partial",
    "Flair.Props.C93_bytes",
    "Flair.Props.C93_lab",
    "Flair.Props.C93_lch",
    "Flair.Props.C93_lab_false",
    "Flair.Props.C93_alpha_false",
    "Flair.Props.C93_alpha"
   ],
   "note": "exactly the notations of CSS are accepted, and the color is the one written for all spaces but lab() and lch() with an alpha that is not none; for those it is proved false (lightness 150 for white; none is opaque). f32 as rationals; the crate cssparser_color is modelled after its documentation"
  },
  {
   "property": "C94",
   "status": "partial",
   "theorems": [
    "Flair.Props.C94_specificity",
    "Flair.Props.C94_specificity_order",
    "Flair.Props.C94_specificity_large",
    "Flair.Props.C94_relative",
    "Flair.Props.C94_nested",
    "Flair.Props.C94_source_partial",
    "Flair.Props.C94_media_false"
   ],
   "note": "proved for all selectors with less than 1024 ids, classes and types, and for all sources in which a rule with a nested @media or @layer block has equally specific selectors; false otherwise (F80). & inside of :is(), :not(), :has() and :nth-child(of): what it selects is covered by the lemmas, its specificity is not claimed."
  },
  {
   "property": "C95",
   "status": "partial",
   "theorems": [
    "Flair.Props.C95_page_partial"
   ],
   "note": "one theorem from the sources of the sheets to the computed values of all elements, for a recalculation of all nodes; the conditions are those of C94 and C90 (::before and ::after count as elements), sheets without errors in the values; imports to any depth are included (C101). Which nodes are recalculated after changes: C43, C56, C58, C78, C80, C85."
  },
  {
   "property": "C96",
   "status": "partial",
   "theorems": [
    "Flair.Props.C96_recalculated_partial",
    "Flair.Props.C96_css_partial"
   ],
   "note": "proved for all histories on a fixed hierarchy, for selectors that look at siblings only from the element or its siblings (.a ~ .b .c and :has() are proved stale: C43), without unset on inheriting properties (proved stale: C16), with modified sheets in effect for whole trees (C43, C80 otherwise); the text conditions are those of C95. The matcher is modelled without the early stops of the crate selectors, which look at fewer elements."
  },
  {
   "property": "C97",
   "status": "partial",
   "theorems": [
    "Flair.Props.C97_where",
    "Flair.Props.C97_points_partial",
    "Flair.Props.C97_inside",
    "Flair.Props.C97_improved",
    "Flair.Props.C97_at_rule_behind",
    "Flair.Props.C97_unknown_at_rule_crashes",
    "Flair.Props.C97_end_of_text_crashes",
    "Flair.Props.C97_line_break_crashes",
    "Flair.Props.C97_last_character_crashes",
    "Flair.Props.C97_color_crashes",
    "Flair.Props.C97_late"
   ],
   "note": "exactly characterised for texts with common line ends; proved false: unknown at-rules in short lines, errors at the end of a text, form feeds and lone carriage returns, non-ASCII line ends, and values of variables whose error has no place crash the loader or the application"
  },
  {
   "property": "C98",
   "status": "partial",
   "theorems": [
    "Flair.Props.C98_ends",
    "Flair.Props.C98_keywords",
    "Flair.Props.C98_curve_partial",
    "Flair.Props.C98_even_partial",
    "Flair.Props.C98_wild",
    "Flair.Props.C98_not_a_number"
   ],
   "note": "ends and keywords proved for all curves; the height is proved for the four keywords, and for all cubic-bezier() whose control points are within an eighth of a third and of two thirds of the time and at any height, at all times, for every tolerance of at least one ten millionth; proved false for cubic-bezier() in general: the search can leave the curve (a valid curve gives -700) or end without a number"
  },
  {
   "property": "C99",
   "status": "partial",
   "theorems": [
    "Flair.Props.C99_one_each_partial",
    "Flair.Props.C99_kinds",
    "Flair.Props.C99_inserted_twice",
    "Flair.Props.C99_too_early",
    "Flair.Props.C99_children_replaced",
    "Flair.Props.C99_place_counts_before",
    "Flair.Props.C99_removed_stays"
   ],
   "note": "proved for all histories in which the application leaves the pseudo elements alone and inserts the support once, on a node or text; proved false otherwise"
  },
  {
   "property": "C100",
   "status": "partial",
   "theorems": [
    "Flair.Props.C100_requested_iff",
    "Flair.Props.C100_nothing_missed",
    "Flair.Props.C100_asked_for",
    "Flair.Props.C100_stops_partial",
    "Flair.Props.C100_spins"
   ],
   "note": "requests are proved to stop for nodes whose animations run together (or that only have transitions); false for two animations of which one ends (C100_spins)"
  },
  {
   "property": "C101",
   "status": "proved",
   "theorems": [
    "Flair.Props.C101_tree",
    "Flair.Props.C101_views_exist"
   ],
   "note": "the order of layers is that of the code; @layer statements of imported files are lost, which CSS does not do: C10"
  },
  {
   "property": "C102",
   "status": "proved",
   "theorems": [
    "Flair.Props.C102_files",
    "Flair.Props.C102_loads"
   ],
   "note": "names of layers are non-empty and without (escaped) dots; selectors, media queries and single values are read by parameters (see C13, C64-C93); keyframes and fonts: C83; C102_loads covers files whose errors are returned when they have none"
  },
  {
   "property": "C103",
   "status": "partial",
   "theorems": [
    "Flair.Props.C103_round_trip_partial",
    "Flair.Props.C103_boxed",
    "Flair.Props.C103_f64",
    "Flair.Props.C103_equal_iff",
    "Flair.Props.C103_nothing_partial",
    "Flair.Props.C103_moving_partial",
    "Flair.Props.C103_crash_iff",
    "Flair.Props.C103_release",
    "Flair.Props.C103_written_iff",
    "Flair.Props.C103_restarts",
    "Flair.Props.C103_agrees",
    "Flair.Props.C103_nan",
    "Flair.Props.C103_number",
    "Flair.Props.C103_crashes"
   ],
   "note": "proved for nodes whose values are equal to themselves and for all types but f64; false for NaN, which calc(0px / 0) gives: the next idle frame crashes with debug assertions (C103_crashes), values are written again (C103_written_iff) and transitions start (C103_restarts); f64 is stored as f32 (C103_f64)"
  },
  {
   "property": "C104",
   "status": "partial",
   "theorems": [
    "Flair.Props.C104_nodes_partial",
    "Flair.Props.C104_unreached",
    "Flair.Props.C104_spawned_mid",
    "Flair.Props.C104_nodes_false",
    "Flair.Props.C104_length_iff",
    "Flair.Props.C104_lengths_iff",
    "Flair.Props.C104_linear_iff",
    "Flair.Props.C104_other_easing",
    "Flair.Props.C104_animations",
    "Flair.Props.C104_sampled",
    "Flair.Props.C104_keyframes"
   ],
   "note": "proved for animations, keyframes and nodes below a root that are not spawned in the middle of a frame; the failures for lengths and linear() are characterised exactly; false for styled entities not below a root (C104_unreached) and nodes spawned after StyleSystems::Prepare (C104_spawned_mid)"
  },
  {
   "property": "C105",
   "status": "partial",
   "theorems": [
    "Flair.Props.C105_length_partial",
    "Flair.Props.C105_number_partial",
    "Flair.Props.C105_lengths_partial",
    "Flair.Props.C105_numbers_partial",
    "Flair.Props.C105_stable",
    "Flair.Props.C105_lossy",
    "Flair.Props.C105_not_finite",
    "Flair.Props.C105_states",
    "Flair.Props.C105_elements"
   ],
   "note": "proved up to rounding to the nearest tenth, and exactly for multiples of a tenth; false for more decimals (C105_lossy) and for NaN and infinities (C105_not_finite)"
  },
  {
   "property": "C106",
   "status": "partial",
   "theorems": [
    "Flair.Props.C106_frame_partial",
    "Flair.Props.C106_history_partial",
    "Flair.Props.C106_schedules",
    "Flair.Props.C106_two_sources",
    "Flair.Props.C106_flag",
    "Flair.Props.C106_nothing_to_tick"
   ],
   "note": "proved for all schedules, worlds and histories in which no node gets a new Interaction and a new Pressed or Hovered in one frame; false otherwise (C106_two_sources). What a system computes from what it reads is arbitrary; the private flag any_animation_active depends on the schedule (C106_flag) and is read by nothing"
  },
  {
   "property": "C107",
   "status": "partial",
   "theorems": [
    "Flair.Props.C107_unseen_partial",
    "Flair.Props.C107_no_assertion_partial",
    "Flair.Props.C107_histories_partial",
    "Flair.Props.C107_unresolved"
   ],
   "note": "proved for all histories in which placeholders are resolved in the frame in which they are computed; false for a node whose sheet is not loaded in that frame (C107_unresolved). That values are compared by an equality that is reflexive is an assumption here (C103 otherwise)"
  },
  {
   "property": "C108",
   "status": "partial",
   "theorems": [
    "Flair.Props.C108_as_file",
    "Flair.Props.C108_accepts_partial"
   ],
   "note": "the same as a file: all texts; when it is accepted: for texts without what crashes the loader (C82, where a text that crashes it is shown)"
  }
 ]
}