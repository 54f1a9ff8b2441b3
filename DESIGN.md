# DESIGN: a Lean 4 model of bevy_flair

`properties.jsonl` lists the properties; `MANIFEST.json` says for each which theorems prove (or refute) it. All theorems named
in this file are in the namespace `Flair.Props`.

## Layout

- `lean/Verif/Model/*.lean`: executable definitions that follow the code function by function; each cites the file and lines
  it models and says where it simplifies. A Rust function that mutates becomes a function to the new state, a panic becomes
  `none` (or an explicit `panic` result), an unbounded loop takes fuel or is an inductive relation.
- `lean/Verif/Spec/*.lean`: the vocabulary in which the properties are stated, written from the CSS specifications or from
  the documentation of the crate, without reference to the model's helpers.
- `lean/Verif/Props/*.lean`: the property theorems `Cxx_...`, each with a comment saying in English what it states and an
  `example` that meets its hypotheses in a non-trivial case.
- `lean/Verif/Proofs/*.lean`: lemmas.
- A theorem named `..._partial` proves part of a property; the missing part is said in its comment and in `MANIFEST.json`.
  Where the unchanged code violates the property, a theorem proves the negation with a concrete witness.
- `seeded/LOG.jsonl`: the wrong programs the theorems were tested against.

## Trusted base

1. Lean 4.33.0's kernel, and that the statements say what the English says (specifications are small for that reason).
2. Axioms. `#print axioms` on every theorem listed in `MANIFEST.json` reports only Lean's standard ones:
   - 385 theorems: depends on axioms: [propext, Classical.choice, Quot.sound]
   - 80 theorems: depends on axioms: [propext, Quot.sound]
   - 27 theorems: depends on axioms: [propext]
   - 10 theorems: does not depend on any axioms
   No axiom is declared in this project; no proof uses compiled evaluation.
3. That the model is a faithful reading of the code: nothing here runs the Rust code. The tie is the citation on each
   definition.
4. Assumptions common to the whole model:
   - Rust's `f32` arithmetic is exact rational arithmetic, except where a property is about not-a-number (`Model/F32`, used
     for reversed transitions). Integer types do not overflow. `Duration` is a natural number of nanoseconds.
   - Third-party crates behave as documented: bevy's ECS (queries see the changes since the last run, commands are applied at
     the sync points, hierarchy components are consistent), bevy's reflection (setting one property path changes that field
     only), `selectors` (an arbitrary program over the Element interface), `cssparser` (CSS Syntax 3), `bevy_math` curves,
     `linked-hash-map`, `indexmap`; hash maps are maps.
   - A parallel query gives some interleaving of per-entity steps that touch disjoint data, modelled by an arbitrary order.
   - Warnings and `debug_assert`s are not modelled (release behaviour), unless a property is about panics.

## What is modelled

| source (under /repo/crates/bevy_flair_*) | model | modelled | not modelled |
|---|---|---|---|
| style/src/layers.rs | Model/Layers | all | — |
| style/src/vars.rs | Model/Vars, Model/CssToken | resolve_vars, ToCss for VarToken | Debug/serde glue |
| style/src/style_sheet.rs, builder.rs | Model/Sheet | ruleset storage, builder calls, resolve order, embed, removal of empty rules, animation/transition collection | font faces, pretty printing, serialization |
| style/src/media_selector.rs, css_parser/src/parser/media_selectors.rs | Model/Media | media features and the matching of media selectors | see the per-property notes for the parser |
| style/src/custom_iterators.rs | Model/Tree | all iterators | — |
| core/src/property_value.rs, property_map.rs | Model/Values | compute step of a value; the copy-on-write map | iteration order, serde |
| style/src/components.rs | Model/Inherit, StyleData, NodeProps, Prepare, Invalidation | NodeProperties (pending/computed values, transitions, animations, events), ClassList, AttributeList, NodeStyleData, NodeStyleMarker, selector flags | Debug output, hooks of reflection |
| style/src/systems.rs | Model/Prepare, StyleData, Invalidation, NodeProps, Components | the systems named in the properties | system scheduling inside bevy (each system is a function on the modelled part of the world, in the order of the plugin) |
| style/src/css_selector/element.rs | Model/Invalidation | all of the Element implementation | attribute case flags |
| style/src/css_selector/mod.rs | — | selectors are opaque in Model/Sheet/Loader; complex selectors as programs in Model/Invalidation | the parser and matcher of the third-party crate `selectors` |
| style/src/animations/transition.rs, animation.rs | Model/Transition, Model/Animation | all | f32 rounding (rationals; F32 only for not-a-number in reversals) |
| style/src/animations/keyframes.rs, curves.rs | Model/Keyframes | builder, resolver, sampling | f32 rounding |
| style/src/animations/properties.rs | Model/AnimProps | all of the resolution | — |
| style/src/animations/easing.rs | Model/Easing, Model/Bezier | linear(), steps(), keywords, cubic-bezier() | rounding |
| style/src/animations/reflect.rs | Model/Interpolate | all interpolations | type-erased registration |
| css_parser/src/parser/animations.rs | Model/AnimShorthand, Model/Easing | shorthands of animation and transition, linear() points, steps() arguments | token errors' texts |
| css_parser/src/parser/keyframes.rs | Model/Keyframes | blocks of keyframes | tokens |
| css_parser/src/parser.rs, internal_loader.rs | Model/Loader | nesting, layers, media, error isolation | token level of rules |
| css_parser/src/calc.rs | Model/Calc | all | f32 rounding |
| css_parser/src/shorthand.rs | Model/Shorthand | all twenty default shorthands | color, gradient, path and grid-track parsers are parameters |
| css_parser/src/inline_styles.rs | Model/InlineStyle | all | hash function of the map |
| css_parser/src/vars.rs | Model/CssToken | all | sign flags of numeric tokens |
| core/src/registry.rs | Model/Registry | ids, ranges, names, shorthands, initial values | u32 wrap-around |
| core/src/component_properties.rs | Model/Components | application and automatic removal | reflection paths (fields of one component are taken to be independent) |
| css_parser/src/reflect/{ui,text,image,grid,enums}.rs | Model/Longhand | parsers of the values of longhands, enumerations | color parser (parameter), strings and asset paths, texts of errors |
| css_parser/src/reflect/gradient.rs | Model/Gradient | all | color parser (parameter), `rad` angles, rounding |
| style/src/systems.rs (media systems) | Model/MediaChange | compute_window_media_features, both marking systems, the provider, the flags | scheduling within a frame is the order of the plugin; `u32` saturation of sizes |
| css_parser/src/parser/media_selectors.rs | Model/MediaQuery | all | texts of errors; `1.0` is not told from `1`; negative zero as a divisor |
| style/src/systems.rs (variables) | Model/VarsChange | calculate_style_and_set_vars (marks), set_property_values, VarResolverParam, mark_as_changed_on_style_sheet_change, the resolution of keyframes | what the rules define is a parameter; which nodes are marked for other reasons is C43, C56, C78 |
| style/src/placeholder.rs | Model/Placeholder | try_resolve_placeholder, the two placeholder types, both users (build and the system) | the asset server (a function of the path); other registered placeholder types |
| css_parser/src/parser.rs | Model/File | item parsers of top level, bodies, nested blocks, layers, imports; choice of the declaration kind (prefix_eq_ignore_ascii_case) | cssparser's tokenizing and grouping into rules; error texts and locations; value parsers are parameters (modelled in Values, Shorthand, …) |
| css_parser/src/parser/keyframes.rs, parser/font_face.rs | Model/File | all | error texts |
| css_parser/src/imports_parser.rs | Model/File | all | - |
| css_parser/src/internal_loader.rs | Model/File, Model/Loader | load_stylesheet, keyframes, font faces, imports, error modes | texts of reports |
| css_parser/src/loader.rs | Model/File | load, inline loader | asset path normalisation; the asset server itself (a function of the path) |
| style/src/systems.rs (set_related_nodes_for_style_recalculation, calculate_is_root), css_selector/element.rs (apply_selector_flags) | Model/Structure | all | the crate `selectors` (the programs are what it does for tests, `:empty`, `:first-child`, `:last-child` and combinators); nth selectors |
| core/src/component_property.rs | Model/Reflect | get/apply through paths | the source of bevy_reflect (documented behaviour), debug assertions on type paths, ParsedPath syntax |
| core/src/component_properties.rs macros | Model/Reflect | extract_properties, nested and @self, internal_apply_values on trees | contents of the component after an ApplyError |
| core/src/impls.rs | Model/Defaults | all declarations, registrations, inherited components, css names | type paths (type names instead) |
| css_parser/src/reflect.rs, parser.rs parse_ruleset_property (dispatch) | Model/Defaults | types with parsers, name to parser | the parsers themselves are in Model/Longhand, Shorthand, Grid, Gradient, Text |
| css_parser/src/parser/animations.rs | Model/AnimParse | the whole file on tokens: times, counts, words, names, timing functions with their arguments, both shorthands, longhands, none, !important, the dynamic path | f32 rounding; error texts and locations; 1.0 is not told from 1 |
| css_parser/src/vars.rs, parser.rs 88-96, 139-242, reflect.rs 52-80, shorthand.rs 144-181 | Model/VarDecl | parse_var_fn, parse_var_token, parse_var_tokens, consume_as_var_tokens, both paths of parse_ruleset_property, the late parsers | the printing to characters (C50), error locations |
| style/src/css_selector/element.rs, css_selector/mod.rs 28-100, 157-268, 463-481 | Model/Selector | every answer of ElementRef, the names of pseudo classes and elements, is_root | the crate selectors (parser and matcher) is modelled after its documentation; hashes |
| style/src/systems.rs 364-381, components.rs 1261-1289 | Model/Pointer | sync_hovered_system, sync_interaction_system, the order of the systems, on_insert_type_name | required components of bevy |
| css_parser/src/reflect/color.rs | Model/Color | every from_* function, parse_color; the crate cssparser_color (names, hex, functions, color()) | f32 rounding (rationals); cssparser_color is modelled after its documentation; names are already lower case |
| style/src/css_selector/mod.rs 301-344, 428-471, 499-501; css_parser/src/internal_loader.rs 117-170 | Model/Nesting, Model/Loader | specificity, has_parent_selector, replace_parent_selector, nested selectors | the crate selectors is modelled after its source from memory; & inside of :is(), :not(), :has(), :nth-child(of) is modelled but its specificity is not claimed |
| style/src/systems.rs 755-914 | Model/Page | calculate_style_and_set_vars and set_property_values for all nodes | marks (Model/Invalidation, StyleData, VarsChange); transitions and animations (their own models) |
| style/src/systems.rs 389-914, 1013-1083 | Model/Live, Model/Matcher | one frame from changes to computed values, incremental, for selectors without :has() | changes of the hierarchy (C19, C20, C35, C44), transitions and animations |
| css_parser/src/error.rs 23-145, 332-339, 453-481 | Model/Report | CssErrorLocation, into_range, which errors panic when reported | messages, drawing (crate ariadne) |
| style/src/animations/curves.rs (7-58), easing.rs | Model/Bezier | cubic-bezier() and the four keywords: points, search, clamping | `CubicSegment` of bevy_math is taken over from memory; rounding of `f32` |
| style/src/components.rs (1291-1355), systems.rs (53-96) | Model/Pseudo | PseudoElementsSupport: hook, sorting, histories of operations on the hierarchy | the operations of bevy on ChildOf and Children are taken over from its documentation |
| systems.rs emit_redraw_event, tick_animations | Model/Redraw, Model/NodeProps | when a redraw is requested | the flag any_animation_active, which nothing reads |
| css_parser/src/loader.rs (108-151) | Model/SheetTree | loading a tree of files that import each other | text and paths (Model/File), fonts and keyframes (Model/File) |
| loader.rs, parser.rs | Spec/FileTree | what whole files on a disk say (reading of rules, bodies and imports) and that loading does it | keyframes and font faces (C83); the reading of single values and selectors (parameters, see C64-C93) |
| reflect_value.rs, property_value.rs, property_map.rs (equality) | Model/ReflectValue | construction, type, downcast and equality of values; all comparisons of values in a frame; the debug assertion of clear_pending_computed_properties | Debug, serialization, FromReflect conversions |
| animations/*.rs, components.rs, systems.rs | Model/Debug | the debug assertions of interpolation, easing curves, animations, keyframes and of the maps of nodes | those of the parser, the layers, the selectors, the registry and of auto_remove_components; the assertion that maps are equal is in Model/ReflectValue |
| style/to_css.rs, ToCss in lib.rs and css_selector/mod.rs | Model/ToCss | text of numbers, lengths, slices, pseudo states and elements | negative zero; selectors as a whole (crate selectors) |
| style/lib.rs FlairStylePlugin::build, FlairStyleAnimationsPlugin::build, css_parser/lib.rs FlairCssParserPlugin::build | Model/Schedule | the systems, their sets and ordering, what each reads and writes | what the ordered systems compute (see the other models); observers; orders with the systems of bevy_ui |
| crates/bevy_flair_style/src/systems.rs | Model/Sharing | set_needs_property_application, resolve_placeholders and apply_computed_properties for a node, with PropertyMap::ptr_eq and set_if_neq | in place changes of maps that are not shared (no other map has their address); nodes spawned in the middle of a frame (C104) |

Not modelled at all: `bin/`, `examples/`, `benches/`, the error report layout (error.rs), asset I/O, font loading, and the
registration of bevy's own components (impls.rs).

## Properties

For each: what is modelled and how it is proved; status; theorems.

- **C01 Cascade layer order is the CSS layer order** (proved). `Model/Layers` (layers.rs). Specification in `Spec/Layers`: the order on layer paths by first appearance, computed from the list of declarations alone. Induction over the declarations with the invariant 'the hierarchy is the list of declared paths in specification order'.
  Theorems: `C01_layer_order`, `C01_layer_order_total`.
- **C02 Layer declarations are idempotent and never reorder existing layers** (proved). `Model/Layers`. Sub-list, no duplicates, closed under parents; induction over declarations.
  Theorems: `C02_define_monotone`.
- **C03 Cascade winner** (proved). `Model/Sheet` (style_sheet.rs, builder.rs). `Spec/Cascade` defines the winner as the maximum of an explicit key (importance is not implemented by the code), stated over declaration views of the source rules. Refinement of the stable sort and the fold.
  Theorems: `C03_cascade`, `C03_cascade_unique`, `C03_views_exist`.
- **C04 A declaration that fails at computed-value time falls back to the previous one in the cascade** (proved). `Model/Sheet`; a declaration that fails at computed-value time can be deleted from the cascade list.
  Theorems: `C04_failed_declaration`.
- **C05 Custom property cascade** (proved). `Model/Sheet`; last definition in cascade order.
  Theorems: `C05_vars_cascade`.
- **C06 Custom property inheritance picks the nearest definition** (proved). `Model/Tree`, `Model/Vars`; nearest definition along the parent chain.
  Theorems: `C06_nearest_definition`, `C06_nearest_unique`.
- **C07 var() substitution is exact, and always terminates** (proved). `Model/Vars` (vars.rs). Inductive substitution relation in `Spec/Vars`; the resolver succeeds exactly on the relation (depth limit stated), with every error truthful, cycles always an error.
  Theorems: `C07_resolve_exact`, `C07_resolve_succeeds_iff`, `C07_resolve_errors_truthful`, `C07_cycle_is_error`, `C07_subst_functional`.
- **C08 Removing empty rulesets is unobservable** (proved). `Model/Sheet` (`remove_all_empty_rulesets`); rule views preserved.
  Theorems: `C08_remove_empty`, `C08_in_range`.
- **C09 @import places the imported rules as if written in place** (proved). `Model/Sheet` (`embed_style_sheet`); views of the importing sheet = views with the imported rules in place.
  Theorems: `C09_import_in_place`.
  Note: Up to the `@layer` statements of the imported sheet (see C10).
- **C10 @import preserves the imported sheet's layer order** (partial). As C09 with the layer order. False (F1): witness and partial theorem.
  Theorems: `C10_import_layer_order_partial`, `C10_import_reorders_layers`.
  Note: The full property is false for the code: C10_import_reorders_layers proves its negation (`@layer` statements of an imported sheet are lost). Proved for imported sheets without such statements.
- **C11 Nested rules keep document order** (proved). `Model/Loader` (internal_loader.rs, parser.rs nesting). `Spec/Loader` flattens the rule tree in document order.
  Theorems: `C11_document_order`, `C11_views_exist`.
- **C12 A broken declaration never takes down its neighbours** (partial). `Model/Loader`; simulation with the source from which the broken declarations were deleted.
  Theorems: `C12_errors_isolated_partial`.
  Note: for errors that can be reported; an error whose report panics takes down the whole load (C82, C97)
- **C13 Media queries are conjunctions, with unavailable features false** (proved). `Model/Media` (media_selector.rs) and C11's views, which attach enclosing conditions.
  Theorems: `C13_conjunction`, `C13_enclosing`, `C11_document_order`.
  Note: C11_document_order attaches to every declaration the conditions it is nested in
- **C14 Global keywords compute as specified** (proved). `Model/Values` (property_value.rs); case analysis over the whole domain.
  Theorems: `C14_compute_spec`, `C14_compute_total`, `C14_unset_of_unset_panics`.
  Note: Registered unset behaviour must not be `unset` itself; C14_unset_of_unset_panics shows the code panics otherwise.
- **C15 Inheritance over the whole tree** (proved). `Model/Inherit` (components.rs compute step); induction over the breadth-first order.
  Theorems: `C15_tree_inheritance`.
- **C16 Inherited values follow the parent when it changes** (partial). `Model/Inherit`; histories of frames. False for `unset` (F3): witness and partial.
  Theorems: `C16_follow_parent_partial`, `C16_unset_is_stale`.
  Note: The full property is false for the code: C16_unset_is_stale proves its negation (explicit `unset` on an inherited property is not refreshed). Proved for all histories without such declarations.
- **C17 Descendant traversal is complete, duplicate free and parent first** (proved). `Model/Tree` (custom_iterators.rs); queue iteration against the inductive descendant relation of `Spec/Inherit`.
  Theorems: `C17_descendants`, `C17_descendants_unique`, `C17_ancestors`.
- **C18 Property maps behave like total maps with value semantics** (proved). `Model/Values` (property_map.rs): heap of reference-counted cells; value semantics by a heap invariant over arbitrary operation sequences.
  Theorems: `C18_value_semantics`, `C18_no_panic`.
- **C19 Effective style sheet is the nearest explicit one** (partial). `Model/Prepare` (calculate_effective_style_sheet). False after re-parenting (F7).
  Theorems: `C19_effective_sheet_partial`, `C19_effective_exists`, `C19_stale_after_move`.
  Note: The full property is false for the code: C19_stale_after_move proves its negation (a re-parented entity keeps the old sheet). Proved for histories in which moved entities also have their sheet component touched.
- **C20 Sibling links mirror the children order** (partial). `Model/Prepare` (sync_siblings_system). False for entities that lost their parent (F10).
  Theorems: `C20_neighbours`, `C20_siblings_partial`, `C20_orphan_stale`.
  Note: Proved in full for entities with a parent (C20_neighbours). False for entities that lost their parent: C20_orphan_stale proves the negation.
- **C21 Pseudo elements are placed first and last** (proved). `Model/Prepare` (sort_pseudo_elements); stable sort facts.
  Theorems: `C21_pseudo_elements`.
- **C22 Focus states follow the focused entity** (partial). `Model/StyleData` (sync_input_focus); histories of frames. False for late styled entities (F26).
  Theorems: `C22_focus_partial`, `C22_late_style`.
  Note: The full property is false for the code: C22_late_style proves its negation (an entity styled while already focused never gets :focus). Proved for all histories in which no entity gets style data while it is focused and stays focused.
- **C23 Class lists are sets** (proved). `Model/StyleData` (ClassList); refinement to finite sets.
  Theorems: `C23_class_list`, `C23_toggle_twice`, `C23_text_roundtrip`, `C23_text_words`.
- **C24 Transition life cycle** (proved). `Model/Transition` (transition.rs); closed form of the state after any list of ticks, times in nanoseconds as natural numbers.
  Theorems: `C24_phase`, `C24_phase_new`, `C24_over`, `C24_cancel`.
- **C25 Transition values start at from, end at to, and progress monotonically** (proved). `Model/Transition`; progress over rationals.
  Theorems: `C25_progress`, `C25_value`, `C25_value_before`, `C25_monotone`.
- **C26 Reversing a transition part-way takes proportionally less time** (partial). `Model/Transition` (reversing); chains of reversals by induction; panic witness (F6).
  Theorems: `C26_proportional`, `C26_no_panic_partial`, `C26_toggle_panics`.
  Note: Proportionality proved for every chain of reversals. 'Nothing panics' is false: C26_toggle_panics (a delayed transition toggled twice within its delay divides by zero and panics); proved for non-zero durations.
- **C27 Animation life cycle** (partial). `Model/Animation` (animation.rs); closed form `Spec.AnimAt` for the state after any ticks; the inner loop of `tick` is a fuelled recursion, so returning is part of the statement; divergence proved for duration 0 (F4).
  Theorems: `C27_life_cycle`, `C27_functional`, `C27_tick_functional`, `C27_zero_count`, `C27_diverges`, `C27_not_always_returns`.
  Note: 'Ticking always returns' is false: C27_diverges (infinite animation of duration 0). Everything else is proved.
- **C28 Animation direction** (proved). as C27/C29, the direction part of the closed form.
  Theorems: `C28_direction`, `C27_life_cycle`, `C29_value`.
  Note: the direction part of AnimAt and of animValue (positionAt)
- **C29 Animation fill mode** (partial). `Model/Animation` (sample_value) against `Spec.animValue`; F5.
  Theorems: `C29_value`, `C29_canceled_partial`, `C29_canceled_yields`.
  Note: 'A cancelled animation yields none' is false: C29_canceled_yields. Proved for everything else, and for cancelled ones without fill.
- **C30 Paused animations do not advance** (proved). `Model/Animation`; paused ticks are identity on time.
  Theorems: `C30_paused`, `C30_resume`.
  Note: An animation that never ran and has no delay starts running at time 0 on its first (paused) tick; time does not advance.
- **C31 Every running animation and transition is ticked each frame** (partial). `Model/NodeProps` (components.rs NodeProperties, systems.rs tick_animations). False (F2).
  Theorems: `C31_transitions`, `C31_animations_partial`, `C31_stalled`.
  Note: Proved for transitions, and for animations when none of the node's animations is over. False in general: C31_stalled (a finished animation stops the ticking of those after it, F2).
- **C32 Cancelled and finished transitions release the property** (partial). `Model/NodeProps`. False for cancelled transitions (F8).
  Theorems: `C32_none_finished`, `C32_finished`, `C32_canceled_partial`, `C32_stuck`.
  Note: Proved for finished transitions; for cancelled ones when something else of the node can still be ticked. False in general: C32_stuck (a cancelled transition masks the computed value for ever, F8).
- **C33 The component always shows animation over transition over computed value** (partial). `Model/NodeProps`; invariant over histories of frames. False (F11).
  Theorems: `C33_write_iff`, `C33_shows_partial`, `C33_stale`.
  Note: Proved for histories of calm frames (a transition is created only where no animation was showing). False in general: C33_stale (F11).
- **C34 Keyframes are normalised** (proved). `Model/Keyframes` (keyframes.rs builder).
  Theorems: `C34_normalised`, `C34_declared`, `C34_merged`, `C34_exact`, `C34_block`, `C36_block`.
- **C35 Missing keyframe values are filled** (proved). `Model/Keyframes` (resolver).
  Theorems: `C35_filled`, `C35_ignored_iff`, `C35_no_panic`, `C35_block`, `C36_block`.
  Note: For interpolations that are straight (Spec.Straight); linear interpolation is.
- **C36 Keyframe curves hit their keyframes** (proved). `Model/Keyframes` (curves.rs); bevy's UnevenCore modelled from its documentation.
  Theorems: `C36_hits`, `C36_between`, `C36_outside`, `C36_block`.
  Note: bevy_math's UnevenCore is modelled from its documentation.
- **C37 animation-* and transition-* lists** (proved). `Model/AnimProps` (properties.rs).
  Theorems: `C37_animation`, `C37_animation_names`, `C37_transition`.
- **C38 animation / transition shorthands reset their longhands** (proved). `Model/AnimProps`; fold over the declarations in cascade order.
  Theorems: `C38_animation`, `C38_transition`, `C38_shorthand_resets`, `C38_longhand_overrides`.
- **C39 Registered properties get unique contiguous ids** (proved). `Model/Registry` (registry.rs); invariants by induction over registrations.
  Theorems: `C39_ids`, `C39_ranges`, `C39_disjoint`, `C39_succeeds_iff`, `C39_initial`, `C39_unset`.
- **C40 CSS names are unambiguous** (partial). `Model/Registry`. False (F12).
  Theorems: `C40_rejected_partial`, `C40_unambiguous_partial`, `C40_resolves_partial`, `C40_clash`.
  Note: Proved when all properties are registered before the shorthands (what the library's plugins do). False in general: C40_clash (F12).
- **C41 Applying values touches exactly the given properties** (proved). `Model/Components` (component_properties.rs, apply systems).
  Theorems: `C41_present`, `C41_absent`, `C41_others`.
  Note: For values of the property's type (an ApplyError stops the component's remaining properties).
- **C42 Auto removal only removes what was auto inserted** (partial). `Model/Components`; histories. False (F36).
  Theorems: `C42_removal_partial`, `C42_user_stays_partial`, `C42_user_component_removed`.
  Note: Proved when the user leaves style-inserted components alone. False in general: C42_user_component_removed (F36).
- **C43 Style invalidation is complete** (partial). `Model/Invalidation`: the selectors crate is an arbitrary program over the Element interface; invariant 'who was looked at is flagged'. False (F9, F40, F41) with partial for all histories.
  Theorems: `C43_histories_partial`, `C43_selectors_partial`, `C43_matching`, `C43_adjacent_descendant_stale`, `C43_has_second_child_stale`, `C43_reset_stale`.
  Note: holds for every history when sibling combinators stand only between the last compounds and a tree shares one sheet; proved false for 'A + B C', for :has() on a child that is not the first, and after a reset of only part of a tree. The hierarchy is fixed; the selectors crate is an arbitrary program over the Element interface
- **C44 calc() computes arithmetic** (partial). `Model/Calc` (calc.rs); grammar and exact evaluation in `Spec/Calc`. False for numbers/angles (F13–F15).
  Theorems: `C44_accepted`, `C44_length`, `C44_same_unit`, `C44_mixed`, `C44_number_partial`, `C44_number_subtraction`, `C44_angle_partial`, `C44_angle_half`, `C44_no_crash_partial`, `C44_crash`.
  Note: Lengths: full. False for numbers with subtraction (F13), for angles multiplied by non-integers (F15), and the parser panics when values follow each other (F14).
- **C45 Four-sided shorthands** (proved). `Model/Shorthand` (shorthand.rs).
  Theorems: `C45_box_values`, `C45_only_box_values`, `C45_border_width_names`, `C45_width_names_alone`.
  Note: all five box shorthands; color and grid parsers are parameters
- **C46 Global keyword on a shorthand applies to all its longhands** (partial). `Model/Shorthand`. False through variables (F18).
  Theorems: `C46_direct`, `C46_via_variable_partial`, `C46_via_variable_fails`.
  Note: direct: every shorthand. Through a variable: holds for exactly seven of the twenty defaults, proved to fail for the other thirteen (as_dynamic_parse_var_tokens does not look for the keyword)
- **C47 Two-value shorthands** (partial). `Model/Shorthand`. False for gap, place-items (F20).
  Theorems: `C47_overflow`, `C47_gap_single`, `C47_gap_swapped`, `C47_place_items_pair`, `C47_place_items_single`.
  Note: overflow holds; gap with two values is proved to set column-gap from the first (CSS: row-gap), place-items with one value is proved to leave justify-items unset
- **C48 InlineStyle is an ordered map** (proved). `Model/InlineStyle`; refinement to an ordered map; text round trip.
  Theorems: `C48_ops`, `C48_get`, `C48_get_untouched`, `C48_parse`, `C48_parse_total`, `C48_text_round_trip`, `C48_semicolon_in_string`.
  Note: declarations are split at semicolons also inside strings, as C48_semicolon_in_string shows
- **C49 Inline styles of different entities are independent** (partial). `Model/InlineStyle`; histories. False (F16).
  Theorems: `C49_independent_partial`, `C49_run`, `C49_others_lost`.
  Note: proved false: a parse problem (even an !important) ends the system, so entities visited later lose their update until written again; holds when no style has a problem
- **C50 Variable values survive the text round trip** (partial). `Model/CssToken`: the CSS Syntax tokenizer as executable functions; round trip by token adjacency lemmas. False for escapes (F44).
  Theorems: `C50_read`, `C50_resolved_text_partial`, `C50_literal_partial`, `C50_quote_lost`, `C50_escape_lost`, `C50_exponent_unit_lost`.
  Note: for values and variables written without backslash, strings without double quotes and units that do not begin like an exponent; proved false for each of the three excluded cases. Percentages are compared after one more rounding; the tokenizer (crate cssparser) is modelled after CSS Syntax 3
- **C51 linear() easing points are completed as CSS says** (proved). `Model/Easing`; relational specification with a uniqueness theorem.
  Theorems: `C51_linear_completed`, `C51_unique`.
  Note: over rational numbers (f32 rounding is not modelled); the specification has exactly one solution
- **C52 Interpolation hits its end points** (partial). `Model/Interpolate` (animations/reflect.rs). False 0↔auto (F21).
  Theorems: `C52_linear`, `C52_incompatible`, `C52_ends_partial`, `C52_on_partial`, `C52_transition_partial`, `C52_straight`, `C52_auto_zero`.
  Note: proved false between auto and zero (the way from 0 starts at auto, the way to 0 ends at auto); everything else holds, over rational numbers
- **C53 Animation events are well formed** (partial). `Model/NodeProps` events over histories. False (F8, F32).
  Theorems: `C53_transitions_partial`, `C53_replaced_after_canceled`, `C53_animation_partial`, `C53_cancel_events`, `C53_canceled_after_finished`, `C53_started_twice`.
  Note: Proved for histories in which no cancelled transition is replaced, and for animations without option changes. False in general: C53_replaced_after_canceled, C53_canceled_after_finished, C53_started_twice (F8, F32).
- **C54 transition-property with a shorthand name covers all its longhands** (proved). `Model/AnimProps` with the registry's shorthand expansion.
  Theorems: `C54_options`, `C54_shorthand`.
- **C55 Easing functions are anchored** (partial). `Model/Easing`; steps() and linear() over rationals; cubic-bezier() is C98.
  Theorems: `C55_steps`, `C55_step_defaults`, `C55_linear_partial`, `C55_linear_drawn`, `C55_linear_identity`, `C55_jump_lost`, `C55_single_point_wrong`, `C55_invalid_steps_accepted`.
  Note: steps() proved in full; linear() proved for strictly increasing positions from 0 to 1, proved false for two points at one position (the jump is lost) and for a single point. cubic-bezier() is C98
- **C56 Change marks are never lost** (proved). `Model/StyleData` (NodeStyleMarker).
  Theorems: `C56_marks_kept`, `C56_reset_first`.
- **C57 A @layer block declares its layer where it is written** (partial). `Model/Loader`. False (F23) for blocks without content; otherwise the declared layers of CSS are those of the code with names put in front of names of something in them, which does not change the order (induction on the source and on the list of declarations).
  Theorems: `C57_order_partial`, `C57_cascade_partial`, `C57_empty_block_nothing`, `C57_empty_block_ignored`.
  Note: False for the code: C57_empty_block_ignored proves the negation (a block without rules declares nothing). Proved when every block contains a rule, a @layer statement or such a block, at any depth.
- **C58 Style data follows the node's components** (partial). `Model/StyleData`; histories of component insertions/removals. False (F24, F25).
  Theorems: `C58_marker_states_partial`, `C58_marker_late`, `C58_classes_late`, `C58_name_partial`, `C58_name_lost`, `C58_classes_partial`, `C58_classes_kept`.
  Note: Proved for the marker states, except that a marker already present when the entity gets its style data is never seen (C58_marker_late); the same holds for classes (C58_classes_late). False for the id (C58_name_lost: Name removed and re-inserted in one frame) and for classes/attributes (C58_classes_kept: component removed); proved outside these cases.
- **C59 Active animations and transitions yield a value** (partial). `Model/Transition`, `Model/Animation`. False (F28 and duration 0).
  Theorems: `C59_transition_partial`, `C59_overshoot`, `C59_animation_partial`, `C59_animation_zero_duration`.
  Note: False for the code: C59_overshoot (a timing function that leaves [0,1] makes an active transition yield nothing), C59_animation_zero_duration (animation of duration 0). Proved for transitions with timing functions into [0,1] and animations with a duration.
- **C60 Replacing a transition does not make the value jump** (partial). `Model/Transition`. False (F31).
  Theorems: `C60_reversal_partial`, `C60_retarget_jumps`.
  Note: False for the code: C60_retarget_jumps (a new target other than the start value makes the transition start from the old target). Proved for reversals.
- **C61 Changing animation options keeps the time** (proved). `Model/Animation`; any history of ticks, updates and pauses.
  Theorems: `C61_history`, `C61_value`, `C61_returns`, `C61_update_returns`.
- **C62 Components of an animation or transition come in any order** (partial). `Model/AnimShorthand` (parser/animations.rs). False (F34).
  Theorems: `C62_transition`, `C62_transition_only`, `C62_animation_only`, `C62_animation_partial`, `C62_animations_partial`, `C62_rejected`, `C62_misread`.
  Note: Transition: all orders. Animation: only when a play state is followed by a timing function, the name or the end. False in general: C62_rejected, C62_misread (F34).
- **C63 A shorthand only sets its own longhands** (proved). `Model/Shorthand`.
  Theorems: `C63_only_its_longhands`, `C63_names`.
- **C64 No text crashes a declaration** (partial). `Model/Shorthand`, `Model/Longhand`, `Model/Calc`; panics are explicit results. False (F14, F19); a compositional lemma shows every other text harmless.
  Theorems: `C64_no_crash_partial`, `C64_longhands_partial`, `C64_transform_none`, `C64_calc_crash`.
  Note: proved for all shorthands and longhands and all texts in which the values inside calc() and parentheses have operators between them, except transform: none, which is proved to crash, as is a calc() with values that follow each other
- **C65 An accepted shorthand resets all its longhands** (partial). `Model/Shorthand`. False (F39).
  Theorems: `C65_sets_all_partial`, `C65_leaves_some`, `C47_place_items_single`.
  Note: holds for nine of the twenty defaults; for each of the others a text is exhibited that leaves a longhand as it was
- **C66 transform sets the longhand of each function** (proved). `Model/Shorthand` (transform functions).
  Theorems: `C66_transform`, `C66_only_transforms`.
  Note: angles in rad are not modelled
- **C67 flex forms** (proved). `Model/Shorthand` (flex).
  Theorems: `C67_flex`, `C67_only_flex`.
- **C68 Animation and transition declarations follow the cascade** (proved). `Model/Sheet` + `Model/AnimProps`: composition of cascade and list resolution.
  Theorems: `C68_animations`, `C68_transitions`.
  Note: for every reading of the declarations; composes C03's cascade with C38
- **C69 Removing an inline style removes its effect** (partial). `Model/InlineStyle`. False (F43).
  Theorems: `C69_clear_partial`, `C69_removal_ignored`.
  Note: proved false for removing the component: the parsed rules stay; holds for writing an empty inline style
- **C70 Composite values interpolate member by member** (partial). `Model/Interpolate`. False for lists of different lengths / kinds.
  Theorems: `C70_plain`, `C70_plain_linear`, `C70_rotation`, `C70_shadows_partial`, `C70_gradient_partial`, `C70_gradients_partial`, `C70_members_partial`, `C70_gradient_members_partial`, `C70_stays`, `C70_lengths_differ`, `C70_kinds_differ`.
  Note: proved false when the lists have different lengths or the gradients different kinds: the first value is shown also at the end. Colors are taken as their Oklab components
- **C71 Removed animations release the property** (partial). `Model/NodeProps`; from any node state through set_animations and the tick. False (F5, F8).
  Theorems: `C71_no_fill_partial`, `C71_removed_partial`, `C71_stuck`.
  Note: proved for animations without fill, and when something on the node still runs; false in general (C71_stuck): a backwards-filling animation removed during its delay, with nothing else running, shows its first keyframe for ever
- **C72 Single values are read exactly** (proved). `Model/Shorthand` (parse_val, parse_f32, parse_angle) against tables of tokens (`Spec/Shorthand2`); `rad` is not modelled.
  Theorems: `C72_length`, `C72_number`, `C72_angle`.
  Note: angles in rad are not modelled (a radian is no rational part of a turn)
- **C73 border, outline, background and grid shorthands** (partial). `Model/Shorthand`; grammars as inductive relations in `Spec/Shorthand2`, both directions. False against CSS for `outline` with a style, `background: none` and `grid-template: none / ...` (F48, F51, F52).
  Theorems: `C73_border`, `C73_only_border`, `C73_outline`, `C73_only_outline`, `C73_outline_style_rejected`, `C73_background`, `C73_background_image`, `C73_background_none_rejected`, `C73_grid_template`, `C73_grid`, `C73_grid_none_rejected`, `C73_colors`.
  Note: exact grammars proved; proved not to be those of CSS: an outline with a style, none as a background, and none for the rows or columns of a grid alone are rejected. The parsers of colors (for which C73_colors shows the assumptions), images, gradients and tracks are parameters
- **C74 Values of longhands are read exactly** (partial). `Model/Longhand`; grammars as inductive relations in `Spec/Longhand`, both directions, with the end of the declaration. The color parser is a parameter. False against CSS for `z-index: auto` and `box-shadow: none` (F54).
  Theorems: `C74_number_pair`, `C74_length_pair`, `C74_rect`, `C74_aspect_ratio`, `C74_clip_margin`, `C74_z_index`, `C74_z_index_auto`, `C74_box_shadow`, `C74_box_shadow_none`, `C74_text_shadow`, `C74_line_height`, `C74_image_mode`, `C74_colors`.
  Note: exact grammars proved; proved not to be those of CSS: z-index: auto and box-shadow: none are rejected. The color parser is a parameter; that of C93 meets what is asked of it (C74_colors)
- **C75 Grid tracks and placements are read exactly** (partial). `Model/Longhand`; grammars in `Spec/Longhand`. False: the number of `repeat()` is cut to sixteen bits (F49).
  Theorems: `C75_auto_tracks`, `C75_template_tracks`, `C75_repetitions_wrap`, `C75_repetitions_partial`, `C75_placement`, `C75_fits_shorthands`.
  Note: exact grammars proved; proved false for the number of repetitions: only its low sixteen bits are kept, and zero and negative numbers are accepted
- **C76 Keywords of enumerations** (proved). `Model/Longhand` (enums.rs); spelling relation in `Spec/Enum`.
  Theorems: `C76_keywords`, `C76_listed`, `C76_listed_accepted`.
  Note: variants with ASCII names
- **C77 Gradients mean what is written** (partial). `Model/Gradient`; grammars as inductive relations in `Spec/Gradient` (first parameter, stops with hints, the added stop), both directions, and the end of the declaration. The color parser is a parameter with stated conditions. False against CSS: F50, F53, F55, F56.
  Theorems: `C77_gradient`, `C77_gradients`, `C77_circle_alone`, `C77_vertical_first`, `C77_conic_wraps`, `C77_negative_first`, `C77_colors`.
  Note: exact grammar and meaning proved; proved not to be those of CSS: circle or ellipse without a size and a position with the vertical part first are rejected, angles of conic stops are wrapped to half a turn, and a first stop before zero gets one at zero in front. The color parser is a parameter (that of C93 meets what is asked of it, C77_colors); angles in rad are not modelled
- **C78 Media conditions follow the window** (partial). `Model/MediaChange`: a machine of events and frames with the recorded dependency flags; invariant: an unmarked node is up to date and its flags cover every condition whose value could change the result. False in general: F57 (a camera that changes is not noticed); F58.
  Theorems: `C78_media_follow_partial`, `C78_camera_later`, `C78_no_target`.
  Note: proved for every history in which cameras stay where they are; proved false when a node gets its camera later or another one; rules with media conditions never apply to nodes without camera and target info
- **C79 Media queries mean what they say** (proved). `Model/MediaQuery`; grammar as inductive relations in `Spec/MediaQuery`; both directions, for all token sequences; corollaries for forms of CSS that are not accepted.
  Theorems: `C79_media_query`, `C79_no_types`, `C79_no_comparison`.
  Note: both directions of the grammar; ASCII case is taken as folded by the tokenizer
- **C80 Values follow the variables** (partial). `Model/VarsChange`: a machine of events and frames; invariant: an unmarked node has its own definitions in force and values computed with the variables it sees; a node whose definitions change marks all below it (C17, C06). False in general: F59, F60; keyframes: F61.
  Theorems: `C80_values_follow_partial`, `C80_moved_subtree`, `C80_other_sheet`, `C80_keyframes`.
  Note: proved for every history in which only leaves are moved or added and modified sheets are those of whole subtrees; proved false for moved subtrees and for a modified sheet of a part of a subtree; keyframes do not follow variables
- **C81 Font families and image paths stand for the right asset** (partial). `Model/Placeholder` extends the builder and the compute pass; fonts by induction over the faces; imports through the exact effect of `embed`; at run time looking names up commutes with the compute pass (projection of worlds), so C16 carries over. False in general: F62, F63, F64, F65.
  Theorems: `C81_direct_values`, `C81_no_names_left`, `C81_bad_source`, `C81_imported`, `C81_elements_partial`, `C81_two_sheets`, `C81_import_cannot_use`, `C81_unknown_family_hides`, `C81_one_bad_source`.
  Note: sheets and imports proved in full; elements proved for all histories when they are under one sheet; proved false with two sheets, and negations for what CSS would do with unknown families
- **C82 No file crashes the loader** (partial). `Model/File`: files as trees of nodes and tokens; every step that may panic returns an option; induction over the tree and over the number of nested imports. False in general: F66, F67.
  Theorems: `C82_no_crash_partial`, `C82_no_crash_inline_partial`, `C82_name_crashes`, `C82_crashing_name`, `C82_layer_crashes`, `C82_crashes`, `C82_font_face_crashes`, `C82_keyframes_crashes`, `C82_empty_crashes`.
  Note: proved for all files with harmless names, any errors and imports; proved false for names with a character across the 9th or 10th byte and for layers whose name starts with a dot, for incomplete @font-face, for two @keyframes of one name, and for unknown animation-/transition- properties with an empty value; located errors are taken to be reportable (C97)
- **C83 Keyframes and font faces are those written** (proved). What a file says as inductive relations over its nodes (`Spec/File`: `Animations`, `Fonts`); the fold of the loader gives exactly them.
  Theorems: `C83_animations`, `C83_fonts`, `C83_unique`, `C83_loads`.
  Note: value parsers are parameters; the builder of keyframes is C34
- **C84 Loading follows the imports** (partial). Loading with a bound on the depth of imports; results do not depend on the bound; loads exactly when the imports do; ends when imports are well-founded. False for cycles: F68.
  Theorems: `C84_unique`, `C84_loads_iff`, `C84_no_cycle`, `C84_cycle_never_loads`, `C84_ends`, `C84_never_ends`, `C84_failed_import`, `C84_mode_not_passed`.
  Note: exact for all graphs of imports; proved false for cycles, which never end; the error mode does not reach imports
- **C85 Styles follow the hierarchy** (partial). `Model/Structure`: the matcher is an arbitrary program over the `Element` interface that may also leave selector flags; selectors are compiled to such programs (proved equivalent to `SelMatches`). Invariant over frames: what an element saw when it was last matched is flagged, so an element that is not marked would see the same again (simulation of its run in the old and in the new world). False in general: F69.
  Theorems: `C85_upwards_partial`, `C85_edge_first_partial`, `C85_matching`, `C85_first_child_stale`, `C85_sibling_stale`.
  Note: proved for all histories for selectors with child and descendant combinators and `:empty`; with sibling combinators, `:first-child`, `:last-child` proved false in general, and true when every sheet starts with an edge selector
- **C86 A style reaches exactly the field of its property** (partial). Reflected values are trees, `try_apply` and paths are modelled as documented by bevy_reflect (whether lists keep their tail is a parameter); induction on typed values; the writes at paths that are apart commute; refinement to the model of C41.
  Theorems: `C86_properties_apart`, `C86_read`, `C86_apply_partial`, `C86_order`, `C86_refines`, `C86_apply_false`, `C86_nested_self_false`.
  Note: exact when no list in a value is shorter than the one it replaces (or lists are cut); otherwise proved false; a nested @self type is outside of the declarations covered and proved wrong
- **C87 Every built-in css name leads to its field** (proved). The tables of the code as data, evaluated in the kernel (all of their entries), combined with C39 (ids of any history of registrations) and C63 (longhands of any text).
  Theorems: `C87_build`, `C87_names`, `C87_distinct`, `C87_inherited`, `C87_declaration`, `C87_unknown`, `C87_shorthand_declaration`, `C87_shorthand_resolves`, `C87_finish`, `C87_apart`.
  Note: the tables are data of the model, taken over entry by entry from impls.rs and reflect.rs
- **C88 Animation and transition declarations are read exactly** (partial). Model/AnimParse is animations.rs on css tokens (functions hold their contents); component parsers are functions of one token, proved equal to the inductive predicates TimeOf, CountOf, WordOf, TimingOf of Spec/AnimParse; comma lists by induction on the loop of parse_comma_separated (soundness and completeness for any component parser); the shorthand loops by induction on the text with the invariant WellFormed; panics traced to tokens.
  Theorems: `C88_time`, `C88_time_crash`, `C88_crash_false`, `C88_time_false`, `C88_count`, `C88_count_false`, `C88_words`, `C88_timing`, `C88_timing_false`, `C88_animation_longhand`, `C88_transition_longhand`, `C88_longhand_own`, `C88_inherit_false`, `C88_important_dropped`, `C88_animation_sound`, `C88_animation_accepts_partial`, `C88_transition_sound`, `C88_transition_accepts`, `C88_empty_false`, `C88_no_crash`, `C88_other_names`, `C88_variables`.
  Note: longhands are exact; the animation shorthand accepts only well formed texts, and all of them when a play state is followed by a timing function, a name or the end (else false, C62) and names are no keywords; crash freedom is false for huge seconds (C88_crash_false) and otherwise proved
- **C89 A declaration with variables means the declaration with the values in place** (partial). Model/VarDecl: parse_var_tokens as a mutual recursion over the token tree, the flat list of variable tokens, the stack machine that finds the blocks of the printed text again, and the two paths of parse_ruleset_property. Spec/VarDecl defines textual replacement by an inductive relation on token trees. Proofs: printing and re-reading a tree is the identity (induction on the tree), resolution is exactly textual replacement (induction on the depth and the tree), and no parser of the library accepts a text with variables (a compositional lemma for every combinator and all parsers), so that the dynamic path is always taken.
  Theorems: `C89_exact_partial`, `C89_static`, `C89_longhand_partial`, `C89_in_place_partial`, `C89_shorthand_partial`, `C89_tidy_longhand_partial`, `C89_tidy_shorthand_partial`, `C89_parentheses_false`, `C89_fallback_false`, `C89_operator_crash`, `C89_important_variable_false`.
  Note: The value is proved to be exactly that of the replaced text, for all longhand parsers and all 20 shorthands, when the text has no blocks in parentheses or brackets, variables nest at most seven deep (C15/C50) and loading does not crash, which is proved when values in calc() have operators between them; the exceptions are proved (F73). Global keywords that come from a variable into a shorthand are C46.
- **C90 Selectors mean what they say** (partial). Model/Selector: the answers of element.rs one by one, and the matcher of the crate selectors after its documentation (as a mutual recursion over simple, compound, complex selectors and lists, walking with the moves of the element; a panic is a result of its own). Spec/Selector gives the meaning on the hierarchy: siblings are positions in the list of children, ancestors are the transitive parents. Proof by mutual induction on selectors, with lemmas that the walks over Siblings yield the siblings (from C20), parent walks the ancestors, first-child/next-sibling walks the descendants, and that relative selectors only match where :has() looks.
  Theorems: `C90_every_partial`, `C90_exact_partial`, `C90_pseudo_partial`, `C90_states`, `C90_pseudo_names`, `C90_root`, `C90_first_child_false`, `C90_empty_false`, `C90_universal_false`, `C90_pipe_crashes`.
  Note: exact for all selectors without a bare | on hierarchies without pseudo elements, and with pseudo elements for selectors that look neither at siblings nor at children; proved false otherwise (::before and ::after count as elements), and a bare | is proved to crash. The matcher of the crate selectors is modelled after its documentation
- **C91 :hover and :active follow the pointer** (partial). Model/Pointer: the three systems on one node with change detection as in C58; a pass runs them in any order (all permutations are covered). Invariant over the histories of passes.
  Theorems: `C91_markers_partial`, `C91_interaction_partial`, `C91_pressed_not_hovered`, `C91_both_sources`, `C91_removed`.
  Note: proved for nodes without Interaction when Hovered is not removed, and for nodes with only Interaction except that a pressed node is not :hover; proved false otherwise
- **C92 The type of an element is its type name** (partial). Model/Pointer: the insertion hook as a step function with a crash outcome; induction on histories.
  Theorems: `C92_once_partial`, `C92_twice_crashes`, `C92_early_lost`.
  Note: proved when the name is inserted once, with or after the style data; proved false otherwise: a second insertion crashes, an early one is lost
- **C93 A written color is the color shown** (partial). Model/Color: color.rs function by function on top of a model of the crate cssparser_color (from its documentation and CSS Color 4), over rationals. Spec/Color has the notations of CSS as inductive relations; the parser is shown to accept exactly those texts by inversion of each part, and the colors of bevy are mapped back to the units of CSS.
  Theorems: `C93_one_meaning`, `C93_accepted`, `C93_shown_partial`, `C93_bytes`, `C93_lab`, `C93_lch`, `C93_lab_false`, `C93_alpha_false`, `C93_alpha`.
  Note: exactly the notations of CSS are accepted, and the color is the one written for all spaces but lab() and lch() with an alpha that is not none; for those it is proved false (lightness 150 for white; none is opaque). f32 as rationals; the crate cssparser_color is modelled after its documentation
- **C94 Nested rules and specificity** (partial). Model/Nesting: specificity (three saturating fields of 10 bits), the replacement of & and what it adds to the specificity, after the crate selectors. Spec/Nesting has specificities as triples with the lexicographic order, & as a set of elements, and what each declaration of a source is for. Mutual induction over selectors, then over sources.
  Theorems: `C94_specificity`, `C94_specificity_order`, `C94_specificity_large`, `C94_relative`, `C94_nested`, `C94_source_partial`, `C94_media_false`.
  Note: proved for all selectors with less than 1024 ids, classes and types, and for all sources in which a rule with a nested @media or @layer block has equally specific selectors; false otherwise (F80). & inside of :is(), :not(), :has() and :nth-child(of): what it selects is covered by the lemmas, its specificity is not claimed.
- **C95 From what is written to what is computed** (partial). Model/Page: the two systems for all nodes at once. Composition of C94 (rules as meant), C101 (files with imports to cascade), C13 (conditions), C06 (variables), C15 (inheritance) into one theorem against Spec/Page.
  Theorems: `C95_page_partial`.
  Note: one theorem from the sources of the sheets to the computed values of all elements, for a recalculation of all nodes; the conditions are those of C94 and C90 (::before and ::after count as elements), sheets without errors in the values; imports to any depth are included (C101). Which nodes are recalculated after changes: C43, C56, C58, C78, C80, C85.
- **C96 After any history of changes the style is that of the current page** (partial). Model/Live: the systems of a frame in their order, incremental; Model/Matcher: the matcher of Model/Selector as a program of Model/Invalidation. Invariant over histories (an unmarked node has the rules, variables and values that would be calculated now, and would be marked if any of what it looked at changed), composed with C16 and C95.
  Theorems: `C96_recalculated_partial`, `C96_css_partial`.
  Note: proved for all histories on a fixed hierarchy, for selectors that look at siblings only from the element or its siblings (.a ~ .b .c and :has() are proved stale: C43), without unset on inheriting properties (proved stale: C16), with modified sheets in effect for whole trees (C43, C80 otherwise); the text conditions are those of C95. The matcher is modelled without the early stops of the crate selectors, which look at fewer elements.
- **C97 Reporting an error never crashes, and points at the text in error** (partial). Model/Report: source locations (lines and UTF-16 columns of cssparser), the search of the range in the text, and every panic on the way as an option; all texts, positions and lengths.
  Theorems: `C97_where`, `C97_points_partial`, `C97_inside`, `C97_improved`, `C97_at_rule_behind`, `C97_unknown_at_rule_crashes`, `C97_end_of_text_crashes`, `C97_line_break_crashes`, `C97_last_character_crashes`, `C97_color_crashes`, `C97_late`.
  Note: exactly characterised for texts with common line ends; proved false: unknown at-rules in short lines, errors at the end of a text, form feeds and lone carriage returns, non-ASCII line ends, and values of variables whose error has no place crash the loader or the application
- **C98 Cubic Bézier easing follows its curve** (partial). `Model/Bezier`: the search (Newton, eight guesses) over rationals. A Kantorovich style invariant (the error squares and shrinks in a window the guesses do not leave) proves that it ends for the four keywords at all times; `ease-in` from `ease-out` by the symmetry of the search; the distance to the curve from the chords; the same invariant, with bounds in two parameters, for all curves with nearly even time. Counterexamples by kernel computation on rationals.
  Theorems: `C98_ends`, `C98_keywords`, `C98_curve_partial`, `C98_even_partial`, `C98_wild`, `C98_not_a_number`.
  Note: ends and keywords proved for all curves; the height is proved for the four keywords, and for all cubic-bezier() whose control points are within an eighth of a third and of two thirds of the time and at any height, at all times, for every tolerance of at least one ten millionth; proved false for cubic-bezier() in general: the search can leave the curve (a valid curve gives -700) or end without a number
- **C99 An element with pseudo element support has one ::before and one ::after** (partial). `Model/Pseudo`: entities, children lists, hook and sorting system. Invariant over histories, with the run of the same history without support next to it: the children that are no pseudo elements are those of the other run; before the first insertion of support there are no pseudo elements, after it exactly one of each; unchanged lists are in order. Counterexamples by computation.
  Theorems: `C99_one_each_partial`, `C99_kinds`, `C99_inserted_twice`, `C99_too_early`, `C99_children_replaced`, `C99_place_counts_before`, `C99_removed_stays`.
  Note: proved for all histories in which the application leaves the pseudo elements alone and inserts the support once, on a node or text; proved false otherwise
- **C100 A redraw is requested exactly while something moves** (partial). `Model/Redraw` on top of `Model/NodeProps`: a frame in which nothing happens and nothing can be ticked is the identity on the node (invariant: after each frame no events are left and the animated values are the last ones), by induction over the later frames; transitions and animations that run together end by C24/C27.
  Theorems: `C100_requested_iff`, `C100_nothing_missed`, `C100_asked_for`, `C100_stops_partial`, `C100_spins`.
  Note: requests are proved to stop for nodes whose animations run together (or that only have transitions); false for two animations of which one ends (C100_spins)
- **C101 A file that imports files that import files** (proved). `Model/SheetTree`: loading by recursion over the tree of imports. Invariant of the builder (it realises a list of rules; empty rulesets are exactly the rules without declarations; a ruleset can be built iff its declarations are acceptable), kept by own items, by the removal of one ruleset, and by embedding a built sheet; induction over the tree; then as C11.
  Theorems: `C101_tree`, `C101_views_exist`.
  Note: the order of layers is that of the code; @layer statements of imported files are lost, which CSS does not do: C10
- **C102 A file on disk means what its text and the texts of its imports say, in order** (proved). The loader of files (Model/File) is connected to the loader of trees of parts (Model/SheetTree): a mutual inductive relation FileTree reads a disk without the model's parser; induction on the nesting of loads shows that the loaded sheet is loadTree of the parts, so C101 applies; the converse is by induction on the acyclic import relation with C82 and C84.
  Theorems: `C102_files`, `C102_loads`.
  Note: names of layers are non-empty and without (escaped) dots; selectors, media queries and single values are read by parameters (see C13, C64-C93); keyframes and fonts: C83; C102_loads covers files whose errors are returned when they have none
- **C103 A frame that changes nothing does nothing** (partial). `Model/ReflectValue`: the comparisons of a frame with an arbitrary equality on values (need not be reflexive), with the marks, the identity of the maps and the debug assertions. Case analysis of one frame; for a real equality the frames are shown to be those of Model/NodeProps (C103_agrees). NaN arises from calc(0px / 0), with the special values of f32.
  Theorems: `C103_round_trip_partial`, `C103_boxed`, `C103_f64`, `C103_equal_iff`, `C103_nothing_partial`, `C103_moving_partial`, `C103_crash_iff`, `C103_release`, `C103_written_iff`, `C103_restarts`, `C103_agrees`, `C103_nan`, `C103_number`, `C103_crashes`.
  Note: proved for nodes whose values are equal to themselves and for all types but f64; false for NaN, which calc(0px / 0) gives: the next idle frame crashes with debug assertions (C103_crashes), values are written again (C103_written_iff) and transitions start (C103_restarts); f64 is stored as f32 (C103_f64)
- **C104 Debug assertions do not fail** (partial). The assertions of each function are modelled as booleans beside the models of the functions. Lengths and easing functions: exact characterisations of the failures by cases and from the specification of linear() (C51). Animations: the invariant, over all lives, that an animation of no iterations is finished or cancelled. Keyframes: from the normal form of the blocks (C34). Nodes: which maps are empty is tracked through the systems of a frame; invariant over all histories (at rest, or to be reset), and a weaker one for the histories that fail.
  Theorems: `C104_nodes_partial`, `C104_unreached`, `C104_spawned_mid`, `C104_nodes_false`, `C104_length_iff`, `C104_lengths_iff`, `C104_linear_iff`, `C104_other_easing`, `C104_animations`, `C104_sampled`, `C104_keyframes`.
  Note: proved for animations, keyframes and nodes below a root that are not spawned in the middle of a frame; the failures for lengths and linear() are characterised exactly; false for styled entities not below a root (C104_unreached) and nodes spawned after StyleSystems::Prepare (C104_spawned_mid)
- **C105 Values written as CSS read back** (partial). Texts are lists of characters: the decimal notation of tenths, and the tokenizer of C50. The text of each value is shown to be one token whose number is the rounded one (induction on the digits), then slices by induction; the parsers of lengths and numbers are those of C72.
  Theorems: `C105_length_partial`, `C105_number_partial`, `C105_lengths_partial`, `C105_numbers_partial`, `C105_stable`, `C105_lossy`, `C105_not_finite`, `C105_states`, `C105_elements`.
  Note: proved up to rounding to the nearest tenth, and exactly for multiples of a tenth; false for more decimals (C105_lossy) and for NaN and infinities (C105_not_finite)
- **C106 A frame does the same in every schedule** (partial). The world is the fields the systems write, a system a function of the fields it reads (any function, except where two unordered systems write the same field). Unordered systems are shown to commute, by cases; a schedule is turned into another by moving the first system of one to the front of the other (induction on the list); histories by induction.
  Theorems: `C106_frame_partial`, `C106_history_partial`, `C106_schedules`, `C106_two_sources`, `C106_flag`, `C106_nothing_to_tick`.
  Note: proved for all schedules, worlds and histories in which no node gets a new Interaction and a new Pressed or Hovered in one frame; false otherwise (C106_two_sources). What a system computes from what it reads is arbitrary; the private flag any_animation_active depends on the schedule (C106_flag) and is read by nothing
- **C107 Shared maps and marks are never seen** (partial). model of the maps with addresses (copy on write), of the marks and of the early return; invariant: equal addresses have equal values; refinement of the frames of NodeProps in which no node is left out, by induction on the history
  Theorems: `C107_unseen_partial`, `C107_no_assertion_partial`, `C107_histories_partial`, `C107_unresolved`.
  Note: proved for all histories in which placeholders are resolved in the frame in which they are computed; false for a node whose sheet is not loaded in that frame (C107_unresolved). That values are compared by an equality that is reflexive is an assumption here (C103 otherwise)
- **C108 A style sheet given as a text in the code is that of a file, without imports and without errors** (partial). `loadInline` (Model/File) is compared with `loadFile` on a disk with one file; the errors that are counted are those of the rules (induction on the items, exact when there is neither `@font-face` nor `@keyframes`), then C101.
  Theorems: `C108_as_file`, `C108_accepts_partial`.
  Note: the same as a file: all texts; when it is accepted: for texts without what crashes the loader (C82, where a text that crashes it is shown)

## Where the code deviates from the property

Each is proved of the model by the theorem named; F-numbers are referred to from comments.

| | where | what | theorem |
|---|---|---|---|
| F1 | style/src/builder.rs embed_style_sheet | the layer order (`@layer a, b;`) of an imported sheet is lost | C10_import_reorders_layers |
| F2 | style/src/components.rs tick_animations | `return` instead of `continue`: a finished animation stops the ticking of those after it | C31_stalled |
| F3 | style/src/components.rs compute_pending_property_values_with_parent | the fast path refreshes `inherit` but not `unset` on inherited properties | C16_unset_is_stale |
| F4 | style/src/animations/animation.rs | an infinite animation of duration 0 never returns from tick | C27_diverges |
| F5 | style/src/animations/animation.rs sample_value | a cancelled animation still yields its fill values; with nothing else running it is never removed | C29_canceled_yields, C71_stuck |
| F6 | style/src/animations/transition.rs | reversing a zero-duration transition within its delay divides 0 by 0 and panics | C26_toggle_panics |
| F7 | style/src/systems.rs calculate_effective_style_sheet | re-parenting does not update the effective sheet | C19_stale_after_move |
| F8 | style/src/components.rs, systems.rs tick_animations | a cancelled transition is never removed and masks the computed value | C32_stuck |
| F9 | style/src/systems.rs mark_changed_nodes_for_recalculation | `A + B C` is stale when A changes | C43_adjacent_descendant_stale |
| F10 | style/src/systems.rs sync_siblings_system | sibling links of an entity that became a root are stale | C20_orphan_stale |
| F11 | style/src/components.rs create_transitions | the record of the last animated value is overwritten: the component keeps a stale value | C33_stale |
| F12 | core/src/registry.rs register_property | the clash with a shorthand is looked up in the wrong map | C40_clash |
| F13 | css_parser/src/calc.rs try_sub for f32 | `calc(5 - 3)` is 8 | C44_number_subtraction |
| F14 | css_parser/src/calc.rs parse_calc_sum | `calc(1px 2px 3px)` panics (`todo!`) | C44_crash, C64_calc_crash |
| F15 | css_parser/src/calc.rs Rot2 | `calc(360deg * 0.5)` is 0deg | C44_angle_half |
| F16 | css_parser/src/inline_styles.rs parse_inline_style | a problem in one inline style drops the updates of all entities after it | C49_others_lost |
| F18 | css_parser/src/shorthand.rs as_dynamic_parse_var_tokens | a global keyword on a shorthand through `var()` is rejected | C46_via_variable_fails |
| F19 | css_parser/src/shorthand.rs parse_transform | `transform: none` panics (`todo!`) | C64_transform_none |
| F20 | css_parser/src/shorthand.rs gap, place-items | gap's first value goes to column-gap; place-items with one value leaves justify-items | C47_gap_swapped, C47_place_items_single |
| F21 | style/src/animations/reflect.rs interpolate_val | between auto and 0 the whole way is auto | C52_auto_zero |
| F23 | css_parser/src/parser.rs | an empty `@layer x {}` does not declare x | C57_empty_block_ignored |
| F24 | style/src/systems.rs | Name removed and re-inserted within a frame loses the id | C58_name_lost |
| F25 | style/src/systems.rs | removing ClassList keeps the classes | C58_classes_kept |
| F26 | style/src/systems.rs sync_input_focus | an entity styled while focused never gets :focus | C22_late_style |
| F28 | style/src/animations/transition.rs | an overshooting timing function makes an active transition yield nothing | C59_overshoot |
| F31 | style/src/components.rs create_transitions | a re-targeted transition starts at the old target: a jump | C60_retarget_jumps |
| F32 | style/src/components.rs | an animation paused from the start emits Started twice; a finished one later emits Canceled | C53_started_twice, C53_canceled_after_finished |
| F33 | style/src/animations/easing.rs | linear() with one point uses its position as value; two points at one position lose the jump | C55_single_point_wrong, C55_jump_lost |
| F34 | css_parser/src/parser/animations.rs | missing `continue` after the play state: some orders are rejected or misread | C62_rejected, C62_misread |
| F36 | style/src/systems.rs auto_remove_components | the automatic-insertion flag survives a user's replacement of the component, which is then removed | C42_user_component_removed |
| F38 | css_parser/src/shorthand.rs parse_border_width | `thin thick` is rejected: names stand alone | C45_width_names_alone |
| F39 | css_parser/src/shorthand.rs | several shorthands leave longhands unset | C65_leaves_some |
| F40 | style/src/css_selector/element.rs | `:has()` on a child that is not the first is stale | C43_has_second_child_stale |
| F41 | style/src/systems.rs | resetting the flags of a part of a tree loses dependencies | C43_reset_stale |
| F42 | css_parser/src/inline_styles.rs | inline text is split at `;` inside strings | C48_semicolon_in_string |
| F43 | css_parser/src/inline_styles.rs | removing InlineStyle leaves its rules | C69_removal_ignored |
| F44 | style/src/vars.rs ToCss | variable text is not escaped | C50_quote_lost, C50_escape_lost, C50_exponent_unit_lost |
| F45 | css_parser/src/parser/animations.rs | steps(0) and steps(1, jump-none) are accepted | C55_invalid_steps_accepted |
| F46 | style/src/animations/reflect.rs | lists of different lengths and gradients of different kinds never arrive at the end value | C70_lengths_differ, C70_kinds_differ |
| F47 | style/src/systems.rs sync systems | classes, attributes and state markers present before the entity gets its style data are never copied: only Changed/Added components are looked at | C58_marker_late, C58_classes_late |
| F48 | css_parser/src/shorthand.rs parse_outline | `outline: 1px solid red` is rejected: a style is not allowed | C73_outline_style_rejected |
| F51 | css_parser/src/shorthand.rs parse_background | `background: none` and `background-image: none` are rejected | C73_background_none_rejected |
| F52 | css_parser/src/shorthand.rs parse_grid_template | `grid-template: none / 100px` and `grid: none / auto-flow` are rejected | C73_grid_none_rejected |
| F49 | css_parser/src/reflect/grid.rs parse_repeat_function_args | the number of repetitions is converted with `as u16`: repeat(65537, ...) is one, repeat(-1, ...) is 65535, repeat(0, ...) is accepted | C75_repetitions_wrap |
| F54 | css_parser/src/reflect/ui.rs parse_z_index, parse_box_shadow | `z-index: auto` and `box-shadow: none` are rejected | C74_z_index_auto, C74_box_shadow_none |
| F50 | css_parser/src/reflect/gradient.rs parse_angular_color_stop | angles of the stops of conic gradients are wrapped to half a turn: 360deg is 0, 270deg is -90deg | C77_conic_wraps |
| F53 | css_parser/src/reflect/gradient.rs parse_radial_gradient_shape | `radial-gradient(circle, ...)` and `radial-gradient(circle at ..., ...)` are rejected: a size is needed after the word | C77_circle_alone |
| F55 | css_parser/src/reflect/gradient.rs insert_zero_stop_if_missing | a first stop before zero gets a stop at zero put in front of it | C77_negative_first |
| F56 | css_parser/src/reflect/gradient.rs parse_ui_position | `at top left` is rejected: the horizontal part has to come first | C77_vertical_first |
| F57 | style/src/systems.rs set_nodes_for_style_recalculation_on_window_media_features_change | a node that gets its camera after its first frame, or another camera, keeps the rules chosen for the old color scheme: changes of `ComputedUiTargetCamera` are not looked at | C78_camera_later |
| F58 | style/src/systems.rs MediaFeaturesProviderImpl | rules with media conditions never apply to nodes without a camera and target info of their own, such as text spans | C78_no_target |
| F59 | style/src/systems.rs calculate_style_and_set_vars | when a subtree is moved to another parent, only its root is recalculated: the nodes below it keep values computed with the variables of the old parent | C80_moved_subtree |
| F60 | style/src/systems.rs mark_as_changed_on_style_sheet_change | the variables are cleared before the comparison, so when a reloaded sheet defines no variables any more, nodes below with another sheet are not recalculated | C80_other_sheet |
| F61 | style/src/systems.rs set_property_values, resolve_animations | variables used in keyframes are resolved only when the list of animations changes: later changes of the variable are ignored | C80_keyframes |
| F62 | style/src/systems.rs resolve_placeholders | an inherited `font-family: var(..)` is a name when parent and child are computed in the same frame and a font afterwards: with two sheets the child's font depends on the history | C81_two_sheets |
| F63 | style/src/builder.rs build | the direct values of an imported sheet are resolved when it is built alone: it cannot use the @font-face of the importing sheet, although it can through var() | C81_import_cannot_use |
| F64 | style/src/builder.rs resolve_placeholders | a declaration with an unknown family (or a bad image path) becomes `None` instead of being ignored: it hides weaker declarations and inheritance | C81_unknown_family_hides |
| F65 | style/src/builder.rs build | one @font-face whose source is not a path fails the whole sheet | C81_one_bad_source |
| F66 | css_parser/src/parser.rs prefix_eq_ignore_ascii_case | a property name with a multi-byte character across its 9th or 10th byte (`transitioén`) panics: slice not at a char boundary | C82_name_crashes |
| F67 | style/src/builder.rs define_layer | `@layer \.x;` (a name that starts with an escaped dot) panics | C82_layer_crashes |
| F68 | css_parser/src/loader.rs load | cyclic @imports never end loading (no error); the error mode is not passed to imported files | C84_never_ends |
| F69 | style/src/css_selector/element.rs apply_selector_flags | flags meant for the parent (`HAS_EDGE_CHILD_SELECTOR`, `HAS_SLOW_SELECTOR_LATER_SIBLINGS`, …) are stored on the element itself, but a change of children consults the flags of the parent: `.a:first-child` and `.a + .b` keep their styles after siblings are inserted or despawned | C85_first_child_stale |
| F70 | core/src/component_property.rs apply_value_using_reflect | values are written with `try_apply`; if lists keep their tail there (bevy_reflect documents appending, not cutting; its source is not in the repo), a shorter `grid-template-*`, `box-shadow` or gradient list leaves the rest of the longer old list | C86_apply_false |
| F71 | core/src/component_properties.rs impl_component_properties @self | a `#[nested]` field whose type is declared with @self registers the empty path, i.e. the whole parent component | C86_nested_self_false |
| F72 | css_parser/src/parser/animations.rs parse_duration, parse_iteration_count | a time of 2^64 seconds or more panics; parts of milliseconds, negative delays and fractional iteration counts are refused although css allows them; an empty animation, steps(0) and cubic-bezier with x outside of [0,1] are accepted although css forbids them; !important is dropped silently; animation-name: inherit names an animation | C88_crash_false, C88_time_false, C88_count_false, C88_timing_false, C88_empty_false, C88_important_dropped, C88_inherit_false |
| F73 | css_parser vars.rs parse_var_tokens, parse_var_fn | a value with variables may not contain parentheses or brackets (calc((100% - var(--gap)) / 2) is refused), var() has no fallback, `--x: .. !important` is refused, and a variable in the place of an operator of calc() ends the program while loading | C89_parentheses_false, C89_fallback_false, C89_important_variable_false, C89_operator_crash |
| F74 | style css_selector/element.rs has_namespace | a selector with a bare | in front of a name (|button) ends the program when it is matched: has_namespace is unimplemented!() | C90_pipe_crashes |
| F75 | style css_selector/element.rs | ::before and ::after entities count as elements: with a ::before the first child is not :first-child, its parent not :empty, and * applies to ::before | C90_first_child_false, C90_empty_false, C90_universal_false |
| F76 | style systems.rs sync_interaction_system, sync_hovered_system | a node with Interaction that is pressed is not :hover; Interaction hides Hovered on the same node; removing either component leaves :hover or :active on for ever | C91_pressed_not_hovered, C91_both_sources, C91_removed |
| F77 | style components.rs on_insert_type_name | inserting a TypeName twice panics; one inserted before the node has its style data is lost; the type stays when TypeName is removed | C92_twice_crashes, C92_early_lost |
| F78 | css_parser reflect/color.rs from_lab, from_lch | the lightness 100 becomes 1.5 although 1.0 is white in bevy: lab(100% 0 0) has the lightness 150, and a, b of lab() are 1.2 times what is written | C93_lab_false, C93_lab, C93_lch |
| F79 | css_parser reflect/color.rs alpha! | the alpha none is opaque in all functions except rgb(), in CSS it is transparent | C93_alpha_false |
| F80 | css_parser parser.rs nested @media / @layer | a block @media or @layer inside of a rule with several selectors gives its declarations the specificity of the most specific of them: .a, #b { @media … { x: 1 } } counts like #b for .a; in CSS each selector keeps its own | C94_media_false |
| F81 | css_parser parser.rs / internal_loader.rs, unlocated errors | an incomplete @font-face, a second @keyframes of one name, and an unknown animation-…/transition-… property with an empty value give an error without a location, whose report panics: the load crashes | C82_font_face_crashes, C82_keyframes_crashes, C82_empty_crashes |
| F82 | css_parser error.rs from_str / into_range | the error of an unknown at-rule is located behind its name, with the length of the name: @page { at the end of a line panics (the rest of the line is shorter than the name), otherwise the report points behind the name | C97_unknown_at_rule_crashes, C97_at_rule_behind |
| F83 | css_parser error.rs into_range | an error at the end of a text that ends with a line break, any error behind a form feed or lone carriage return in a text without \n, and an error at the end of a line that ends with a non-ASCII character panic | C97_end_of_text_crashes, C97_line_break_crashes, C97_last_character_crashes |
| F84 | css_parser reflect.rs as_dynamic_parse_var_tokens | an error without a location in a value with variables (color: var(--c) with --c: currentcolor) panics inside of a system: the application crashes | C97_color_crashes, C97_late |
| F85 | animations/curves.rs CubicBezierEaseCurve, parser/animations.rs parse_easing_cubic_bezier_parameters | The search for the value gives up after eight guesses, wherever they are: `cubic-bezier(1, 0, 0, 1)`, a valid curve of CSS, gives a value below -700 just after its middle (the element jumps far away for a frame). x coordinates outside of 0 to 1, invalid in CSS, are accepted, and `cubic-bezier(3, 0, -2, 1)` gives a value that is not a number at a quarter of the time | C98_wild, C98_not_a_number |
| F86 | components.rs on_insert_pseudo_elements_support | Each insertion of PseudoElementsSupport makes two more pseudo elements (the two ::after children then swap places with each change); support inserted before Node or Text never makes any; despawning the children of an element removes them for good; removing the support leaves them; places given to insert_children count the ::before child | C99_inserted_twice, C99_too_early, C99_children_replaced, C99_place_counts_before, C99_removed_stays |
| F87 | components.rs tick_animations, systems.rs emit_redraw_event | With two animations on a node, when the first is over the second does not move any more (F2) but still counts as running: redraws are requested in every frame for ever while nothing changes | C100_spins |
| F88 | animations/reflect.rs interpolate_option_with | interpolating a conic gradient whose color stop has an angle on one side only: the stop has no angle during the whole animation, not even at its start or its end | C70_stays |
| F89 | components.rs clear_pending_computed_properties, create_transitions; calc.rs parse_calc_product | `width: calc(0px / 0)` gives NaN, which is not equal to itself: a program with debug assertions crashes in the first frame in which no style is recalculated; otherwise the value is written again with each recalculation, and if it has a transition one starts from the value to itself whenever any node is recalculated | C103_crashes, C103_crash_iff, C103_written_iff, C103_restarts |
| F90 | reflect_value.rs ReflectValue::new | an f64 is stored as an f32: value_is::<f64> and downcast_value_ref::<f64> fail, and the value differs from new_from_box of the same number | C103_f64 |
| F91 | reflect.rs interpolate_val | debug builds panic when a zero length is interpolated with auto (transition of width from 0 to auto) | C104_length_iff |
| F92 | easing.rs into_easing_curve | debug builds panic for linear() with positions outside of 0%..100%, which CSS allows | C104_linear_iff |
| F93 | systems.rs compute_property_values | a styled entity not below a UI root keeps its pending animation values after a frame with style changes: debug builds panic in the next frame | C104_unreached |
| F94 | components.rs compute_values_debug_assertions | a node spawned between StyleSystems::Prepare and the calculation of styles panics debug builds (the warning only mentions later spawns) | C104_spawned_mid |
| F95 | to_css.rs round_float | values are rounded to one decimal, so 0.04px is written as 0px; NaN and infinite lengths are written as identifiers (NaNpx) | C105_lossy, C105_not_finite |
| F96 | systems.rs sync_interaction_system | sync_interaction_system, the Pressed marker system and sync_hovered_system write the same states and are not ordered: with both sources changed in one frame the schedule decides | C106_two_sources |
| F97 | systems.rs resolve_placeholders | placeholders computed while the sheet of the node is not loaded stay unresolved: the node is not looked at again until its values change | C107_unresolved |

## Testing the theorems against wrong programs

In a scratch copy, one definition of the model is edited the way a realistic bug would change it, the project is rebuilt, and
the theorems whose proof (or a lemma they rest on) fails are collected. `seeded/LOG.jsonl` has one line per attempt. When a
claim is broken by the edit but no theorem about it fails, the theorem is tightened. Edits marked `control` are not expected
to break a claim.
