{"id": "C01", "title": "Cascade layer order is the CSS layer order", "statement": "After any sequence of @layer statements / layered rules, for any two declared layers the one with higher cascade priority is decided at the first path component where their dotted names differ: the sibling whose name was first seen later wins; a layer always beats the layers nested inside it; the unlayered styles beat every layer.", "quantifier": "every sequence of layer names (any nesting depth, any interleaving of parents, children and re-declarations) and every pair of declared layers", "why_tests_cant": "the insertion algorithm works on positions of a flat list; a test only samples a few declaration orders, while correctness depends on every interleaving of nested definitions", "anchors": ["crates/bevy_flair_style/src/layers.rs:ParsedLayer::parse", "crates/bevy_flair_style/src/layers.rs:LayersHierarchy::define_layer", "crates/bevy_flair_style/src/layers.rs:LayersHierarchy::get_layer_priority"]}
{"id": "C02", "title": "Layer declarations are idempotent and never reorder existing layers", "statement": "Declaring an already declared layer changes nothing; declaring a new one keeps the relative order of all previous layers; every declared layer has exactly one position and all its ancestors are declared too.", "quantifier": "every declaration history and every next declaration", "why_tests_cant": "an invariant over unbounded histories", "anchors": ["crates/bevy_flair_style/src/layers.rs:LayersHierarchy::define_layer"]}
{"id": "C03", "title": "Cascade winner", "statement": "For every element and property, the value a style sheet gives is the one of the last declaration in cascade order among the matching ones: inline style above all, then higher layer, then higher specificity, then later rule in the sheet, then later declaration in the rule. If none matches the property is left at its unset state.", "quantifier": "every style sheet, every set of matching selectors, every property", "why_tests_cant": "correctness is about the maximum over arbitrarily many rules; combinations of layer x specificity x order cannot be enumerated", "anchors": ["crates/bevy_flair_style/src/builder.rs:StyleSheetBuilder::build", "crates/bevy_flair_style/src/style_sheet.rs:StyleSheet::get_matching_ruleset_ids", "crates/bevy_flair_style/src/style_sheet.rs:StyleSheet::get_property_values"]}
{"id": "C04", "title": "A declaration that fails at computed-value time falls back to the previous one in the cascade", "statement": "A var()-based declaration whose variables cannot be resolved or whose substituted text does not parse has no effect on any property: the result is identical to deleting that declaration from the sheet.", "quantifier": "every sheet, every position of the failing declaration, every resolver", "why_tests_cant": "any position among any number of declarations", "anchors": ["crates/bevy_flair_style/src/style_sheet.rs:StyleSheet::get_property_values", "crates/bevy_flair_style/src/style_sheet.rs:Ruleset"]}
{"id": "C05", "title": "Custom property cascade", "statement": "The variables an element defines are, name by name, the ones of the last matching ruleset in cascade order that defines that name, inline definitions above all.", "quantifier": "every sheet, every matching subset, every variable name", "why_tests_cant": "universally quantified over rule lists", "anchors": ["crates/bevy_flair_style/src/style_sheet.rs:StyleSheet::get_vars"]}
{"id": "C06", "title": "Custom property inheritance picks the nearest definition", "statement": "Looking up a variable for an element returns the element's own definition if there is one, otherwise that of its nearest ancestor that defines it, otherwise it is undefined.", "quantifier": "every tree shape, every assignment of variables to nodes", "why_tests_cant": "unbounded depth and assignments", "anchors": ["crates/bevy_flair_style/src/systems.rs:VarResolver", "crates/bevy_flair_style/src/vars.rs"]}
{"id": "C07", "title": "var() substitution is exact, and always terminates", "statement": "Resolving a token list succeeds exactly when every var() reachable from it is defined and reference nesting stays below 8 levels; the result is then the full left-to-right in-place substitution; a reference cycle always yields an error, never a hang.", "quantifier": "every token list and every variable environment including cyclic ones", "why_tests_cant": "cyclic and deep environments are unboundedly many; termination is not testable", "anchors": ["crates/bevy_flair_style/src/vars.rs:VarTokens::resolve_recursively"]}
{"id": "C08", "title": "Removing empty rulesets is unobservable", "statement": "Dropping the empty rulesets before building changes neither the declarations that apply to an element nor their order, for any set of matching selectors, leaves no empty ruleset, and introduces no orphan ruleset.", "quantifier": "every builder state, every match set", "why_tests_cant": "index shifting bugs appear only for particular positions of empty rules", "anchors": ["crates/bevy_flair_style/src/builder.rs:StyleSheetBuilder::remove_all_empty_rulesets", "crates/bevy_flair_style/src/builder.rs:StyleSheetBuilder::remove_id"]}
{"id": "C09", "title": "@import places the imported rules as if written in place", "statement": "Embedding a built sheet appends all of its selector/declaration pairs in their order and (with layer(x)) moves every one of them into x, so the cascade result equals that of the source with the imported rules written in place (the imported sheet's own @layer statements are the subject of C10).", "quantifier": "every importing builder and every imported sheet", "why_tests_cant": "relationship between two arbitrary sheets", "anchors": ["crates/bevy_flair_style/src/builder.rs:StyleSheetBuilder::embed_style_sheet", "crates/bevy_flair_style/src/css_selector/mod.rs:CssSelector::with_layer_prefixed"]}
{"id": "C10", "title": "@import preserves the imported sheet's layer order", "statement": "The relative priority of two layers of an imported sheet is the same after import as in the sheet on its own.", "quantifier": "every imported sheet with layers, imported into every builder", "why_tests_cant": "depends on the relation of declaration order and rule order in arbitrary sheets", "anchors": ["crates/bevy_flair_style/src/builder.rs:StyleSheetBuilder::embed_style_sheet", "crates/bevy_flair_style/src/style_sheet.rs:StyleSheet"]}
{"id": "C11", "title": "Nested rules keep document order", "statement": "Flattening a rule with nested rules yields the declarations in exactly their document order, each under the selectors of the rule it is written in, with declarations after a nested rule still coming after it.", "quantifier": "every nesting tree of rules and declarations, valid or with selector errors", "why_tests_cant": "unbounded nesting", "anchors": ["crates/bevy_flair_css_parser/src/internal_loader.rs:process_ruleset_recursively"]}
{"id": "C12", "title": "A broken declaration never takes down its neighbours", "statement": "With a tolerant error mode the loaded sheet is exactly the sheet obtained after deleting every erroneous declaration and every rule whose selector is invalid; with ReturnError loading fails iff there is at least one error.", "quantifier": "every source with any number of errors at any place", "why_tests_cant": "errors can be anywhere, in any number", "anchors": ["crates/bevy_flair_css_parser/src/internal_loader.rs:load_stylesheet", "crates/bevy_flair_css_parser/src/internal_loader.rs:process_ruleset_property"]}
{"id": "C13", "title": "Media queries are conjunctions, with unavailable features false", "statement": "A rule under media queries (nested @media and 'and') applies iff every one of the conditions holds for the window; a condition on a feature the window does not report is false; no condition means always; min/max are inclusive.", "quantifier": "every list of conditions at every nesting, every window state", "why_tests_cant": "numeric thresholds and combinations", "anchors": ["crates/bevy_flair_style/src/media_selector.rs:MediaSelectors", "crates/bevy_flair_css_parser/src/parser/media_selectors.rs"]}
{"id": "C14", "title": "Global keywords compute as specified", "statement": "inherit gives the parent's computed value (nothing at the root), initial the registered initial value, unset the property's registered unset behaviour, a concrete value itself, and an undeclared property nothing; nothing else about the node matters.", "quantifier": "every property value, registry, and node position", "why_tests_cant": "all combinations of keyword x unset x parent states", "anchors": ["crates/bevy_flair_core/src/property_value.rs:PropertyValue::compute_root_value", "crates/bevy_flair_core/src/property_value.rs:PropertyValue::compute_with_parent"]}
{"id": "C15", "title": "Inheritance over the whole tree", "statement": "After one style pass over a tree whose nodes all have pending declarations, the computed value of each property at each node equals the top-down recursive definition of CSS inheritance from the root.", "quantifier": "every tree and every declaration assignment", "why_tests_cant": "arbitrary depth; depends on parents being processed before children", "anchors": ["crates/bevy_flair_style/src/systems.rs:compute_property_values", "crates/bevy_flair_style/src/custom_iterators.rs", "crates/bevy_flair_style/src/components.rs:NodeProperties::compute_pending_property_values_with_parent"]}
{"id": "C16", "title": "Inherited values follow the parent when it changes", "statement": "If a parent's computed value changes, a child whose own declarations did not change but inherits that property (by inherit or by unset) ends with the new parent value after the same pass.", "quantifier": "every property declaration of the child, every old and new parent value", "why_tests_cant": "incremental recomputation: correctness is relative to all histories", "anchors": ["crates/bevy_flair_style/src/components.rs:NodeProperties::compute_pending_property_values_with_parent"]}
{"id": "C17", "title": "Descendant traversal is complete, duplicate free and parent first", "statement": "Iterating the descendants of an entity yields every strict descendant exactly once, each after its parent, and nothing else.", "quantifier": "every finite forest", "why_tests_cant": "arbitrary tree shapes", "anchors": ["crates/bevy_flair_style/src/custom_iterators.rs"]}
{"id": "C18", "title": "Property maps behave like total maps with value semantics", "statement": "A map returns for a property the last value set; setting reports a change iff the value differs; a clone is never affected by writes to the original; two maps sharing storage are equal.", "quantifier": "every sequence of operations on every set of clones", "why_tests_cant": "aliasing histories", "anchors": ["crates/bevy_flair_core/src/property_map.rs:PropertyMap"]}
{"id": "C19", "title": "Effective style sheet is the nearest explicit one", "statement": "After the preparation pass each entity's effective sheet is that of the nearest ancestor-or-self that specifies one (a blocked entity stops inheritance).", "quantifier": "every tree and every sequence of sheet changes and re-parentings", "why_tests_cant": "histories of changes over arbitrary trees", "anchors": ["crates/bevy_flair_style/src/systems.rs:calculate_effective_style_sheet"]}
{"id": "C20", "title": "Sibling links mirror the children order", "statement": "After the sibling pass, next/previous sibling of an entity are its neighbours in its parent's child list (first/last have none), and an entity without parent has no siblings.", "quantifier": "every child list and every change history", "why_tests_cant": "arbitrary histories of re-parenting", "anchors": ["crates/bevy_flair_style/src/systems.rs:sync_siblings_system", "crates/bevy_flair_style/src/components.rs:Siblings::recalculate_with"]}
{"id": "C21", "title": "Pseudo elements are placed first and last", "statement": "After sorting, a ::before child comes before all others and ::after after all others, real children keep their relative order, and no child is lost or duplicated; sorting again changes nothing.", "quantifier": "every child list", "why_tests_cant": "permutation property over arbitrary lists", "anchors": ["crates/bevy_flair_style/src/systems.rs:sort_pseudo_elements"]}
{"id": "C22", "title": "Focus states follow the focused entity", "statement": "After the focus pass :focus is set exactly on the focused entity (if it is styled), :focus-visible only together with :focus and according to the visibility flag, and no other entity keeps them.", "quantifier": "every sequence of focus and visibility changes", "why_tests_cant": "histories of focus changes", "anchors": ["crates/bevy_flair_style/src/systems.rs:sync_input_focus"]}
{"id": "C23", "title": "Class lists are sets", "statement": "add/remove/toggle/contains behave as on a mathematical set of names; no duplicates ever; toggle twice is the identity as a set; order of insertion otherwise preserved.", "quantifier": "every sequence of operations", "why_tests_cant": "unbounded histories", "anchors": ["crates/bevy_flair_style/src/components.rs:ClassList"]}
{"id": "C24", "title": "Transition life cycle", "statement": "A transition is pending until its delay has elapsed, running until delay+duration has elapsed, then finished; once finished or cancelled no amount of ticking changes it; the state depends only on the total time ticked, not on the frame slicing.", "quantifier": "every delay, duration and every sequence of frame deltas", "why_tests_cant": "frame slicings are unbounded", "anchors": ["crates/bevy_flair_style/src/animations/transition.rs:Transition::tick"]}
{"id": "C25", "title": "Transition values start at from, end at to, and progress monotonically", "statement": "The progress a running transition samples is within [0,1], never decreases between ticks, is 0 at the start of running and the final value is exactly the target.", "quantifier": "every delay, duration, frame sequence", "why_tests_cant": "real-valued progress", "anchors": ["crates/bevy_flair_style/src/animations/transition.rs:Transition::sample_value", "crates/bevy_flair_style/src/components.rs:NodeProperties::set_animation_computed_values"]}
{"id": "C26", "title": "Reversing a transition part-way takes proportionally less time", "statement": "When a transition is interrupted to go back to its start value, the new one takes the fraction of the declared duration that corresponds to the fraction of the whole distance it still has to cover, never longer than declared, however often this is repeated; nothing panics.", "quantifier": "every transition state at interruption, every new options", "why_tests_cant": "continuous parameters, repeated interruption chains", "anchors": ["crates/bevy_flair_style/src/animations/transition.rs:Transition::from_possibly_reversed"]}
{"id": "C27", "title": "Animation life cycle", "statement": "An animation with finite iterations n and non-zero duration d finishes exactly when the ticked time reaches delay + n*d, with its iteration index floor((t-delay)/d) while running, independently of frame slicing; an infinite one never finishes; ticking always returns.", "quantifier": "every delay, duration, count and frame sequence", "why_tests_cant": "unbounded frame sequences; non-termination is not testable", "anchors": ["crates/bevy_flair_style/src/animations/animation.rs:Animation::tick", "crates/bevy_flair_style/src/animations/animation.rs:Animation::iterate_if_necessary"]}
{"id": "C28", "title": "Animation direction", "statement": "The sampled position within an iteration is p, 1-p, or alternates by parity of the iteration index as animation-direction says.", "quantifier": "every progress, direction, iteration index", "why_tests_cant": "all iterations", "anchors": ["crates/bevy_flair_style/src/animations/animation.rs:Animation::sample_value"]}
{"id": "C29", "title": "Animation fill mode", "statement": "Outside its active interval an animation yields a value iff fill-mode asks for it (backwards during delay, forwards after the end), a cancelled animation yields none, and during the active interval it always yields one.", "quantifier": "every state, fill mode, time", "why_tests_cant": "continuous parameters and all states", "anchors": ["crates/bevy_flair_style/src/animations/animation.rs:Animation::sample_value", "crates/bevy_flair_style/src/animations/animation.rs:Animation::is_active"]}
{"id": "C30", "title": "Paused animations do not advance", "statement": "While play-state is paused, ticking leaves time, iteration and sampled value unchanged; on resume it continues from where it stopped.", "quantifier": "every state, every tick sequence", "why_tests_cant": "unbounded sequences", "anchors": ["crates/bevy_flair_style/src/animations/animation.rs:Animation::tick", "crates/bevy_flair_style/src/animations/animation.rs:Animation::update_options"]}
{"id": "C31", "title": "Every running animation and transition is ticked each frame", "statement": "In one frame each running or pending transition and each running or pending animation of a node advances by exactly the frame delta, independently of the others.", "quantifier": "every set of animations/transitions on a node", "why_tests_cant": "interaction between arbitrarily many animations", "anchors": ["crates/bevy_flair_style/src/components.rs:NodeProperties::tick_animations"]}
{"id": "C32", "title": "Cancelled and finished transitions release the property", "statement": "After a transition is cancelled or finished, within a frame the property shows the node's computed value again (or that of a running animation).", "quantifier": "every history of option changes and ticks", "why_tests_cant": "histories", "anchors": ["crates/bevy_flair_style/src/components.rs:NodeProperties::set_transition_options", "crates/bevy_flair_style/src/components.rs:NodeProperties::clear_finished_and_canceled", "crates/bevy_flair_style/src/systems.rs:tick_animations"]}
{"id": "C33", "title": "The component always shows animation over transition over computed value", "statement": "After the apply step the value last written into the component for a property is the animated value if an animation/transition yields one, else the computed value; values that did not change are not written again.", "quantifier": "every history of frames (style changes, animation starts/ends, resets)", "why_tests_cant": "incremental write-back: the invariant relates hidden caches to the component over all histories", "anchors": ["crates/bevy_flair_style/src/components.rs:NodeProperties::apply_computed_properties", "crates/bevy_flair_style/src/components.rs:NodeProperties::set_animation_computed_values"]}
{"id": "C34", "title": "Keyframes are normalised", "statement": "Built keyframes are sorted by time, lie in [0,1], start at 0 and end at 1, contain every declared percentage inside [0,1] and declarations for the same percentage are merged in order (percentages at most 0.1% apart count as the same).", "quantifier": "every sequence of keyframe blocks", "why_tests_cant": "arbitrary sequences", "anchors": ["crates/bevy_flair_style/src/animations/keyframes.rs:AnimationKeyframesBuilder"]}
{"id": "C35", "title": "Missing keyframe values are filled", "statement": "A property absent from 0% or 100% uses the element's own value there, a property absent in between is interpolated between its neighbours, and every keyframe that does specify it keeps the specified value.", "quantifier": "every keyframe list", "why_tests_cant": "arbitrary lists", "anchors": ["crates/bevy_flair_style/src/animations/keyframes.rs:AnimationKeyframesResolver"]}
{"id": "C36", "title": "Keyframe curves hit their keyframes", "statement": "Sampling the keyframe curve at a keyframe's time returns that keyframe's value, between two keyframes it is the eased interpolation of exactly those two, outside the range it is clamped.", "quantifier": "every sorted keyframe list and every time", "why_tests_cant": "continuous time", "anchors": ["crates/bevy_flair_style/src/animations/curves.rs:UnevenSampleEasedCurve"]}
{"id": "C37", "title": "animation-* and transition-* lists", "statement": "There is one animation per listed name; the i-th takes the i-th value of each other list or that list's last value if it is shorter, or the documented default if the list is absent.", "quantifier": "all list lengths", "why_tests_cant": "arbitrary lengths", "anchors": ["crates/bevy_flair_style/src/animations/properties.rs:from_properties_to_animation_configuration", "crates/bevy_flair_style/src/animations/properties.rs:from_properties_to_transition_configuration"]}
{"id": "C38", "title": "animation / transition shorthands reset their longhands", "statement": "A shorthand declaration replaces every longhand it covers with its own values or defaults, and longhands after it override. A longhand that is invalid because of a variable has no effect; a shorthand that is invalid because of a variable resets its longhands to their defaults.", "quantifier": "every sequence of declarations", "why_tests_cant": "arbitrary sequences", "anchors": ["crates/bevy_flair_style/src/animations/properties.rs:AnimationProperties::resolve_to_output"]}
{"id": "C39", "title": "Registered properties get unique contiguous ids", "statement": "Each registered property has its own id below the number of properties, ids of one component are contiguous, ranges of different components are disjoint, and looking up a name or id round-trips.", "quantifier": "every registration sequence", "why_tests_cant": "unbounded sequences", "anchors": ["crates/bevy_flair_core/src/registry.rs:PropertyRegistry"]}
{"id": "C40", "title": "CSS names are unambiguous", "statement": "A css name resolves to at most one thing; registering a property or shorthand with a name already used (by either kind) is rejected.", "quantifier": "every registration sequence", "why_tests_cant": "sequences", "anchors": ["crates/bevy_flair_core/src/registry.rs:CssPropertyRegistry::register_property", "crates/bevy_flair_core/src/registry.rs:CssPropertyRegistry::resolve"]}
{"id": "C41", "title": "Applying values touches exactly the given properties", "statement": "Applying a set of values to a component writes each given property of that component and leaves every other property and component unchanged; an absent component is inserted iff it is auto-insertable and at least one value is given.", "quantifier": "every component layout, value set, entity", "why_tests_cant": "arbitrary layouts", "anchors": ["crates/bevy_flair_core/src/component_properties.rs:ComponentProperties"]}
{"id": "C42", "title": "Auto removal only removes what was auto inserted", "statement": "A component is removed automatically only if it was inserted automatically and none of its properties has a value any more; components the user added are never removed.", "quantifier": "every history of style changes and user insertions", "why_tests_cant": "histories", "anchors": ["crates/bevy_flair_core/src/component_properties.rs", "crates/bevy_flair_style/src/systems.rs:auto_remove_components"]}
{"id": "C43", "title": "Style invalidation is complete", "statement": "If an element's class/attribute/state change can change whether a selector matches some element of the tree, that element is re-styled in the same frame.", "quantifier": "every selector, tree and change", "why_tests_cant": "selector x tree x change combinations", "anchors": ["crates/bevy_flair_style/src/systems.rs:mark_changed_nodes_for_recalculation", "crates/bevy_flair_style/src/css_selector/element.rs"]}
{"id": "C44", "title": "calc() computes arithmetic", "statement": "A calc() expression evaluates to the value of the arithmetic expression; mixing incompatible units is reported as an error and zero is neutral with any unit; the parser reports malformed expressions instead of crashing.", "quantifier": "every expression tree", "why_tests_cant": "unbounded expressions", "anchors": ["crates/bevy_flair_css_parser/src/calc.rs"]}
{"id": "C45", "title": "Four-sided shorthands", "statement": "margin/padding/border-* with 1-4 values set each of the four longhands exactly once, following the CSS expansion rule (top, right, bottom, left).", "quantifier": "every 1-4 value list, every four-sided shorthand", "why_tests_cant": "arbitrary values", "anchors": ["crates/bevy_flair_css_parser/src/shorthand.rs:parse_four_values", "crates/bevy_flair_css_parser/src/shorthand.rs:parse_ui_rect", "crates/bevy_flair_css_parser/src/shorthand.rs:parse_border_radius"]}
{"id": "C46", "title": "Global keyword on a shorthand applies to all its longhands", "statement": "'inherit', 'initial' or 'unset' given to a shorthand sets every longhand of it to that keyword, also when it comes through a variable.", "quantifier": "every shorthand and keyword", "why_tests_cant": "applies to user-registered shorthands too", "anchors": ["crates/bevy_flair_css_parser/src/shorthand.rs:ShorthandProperty::parse", "crates/bevy_flair_css_parser/src/shorthand.rs:ShorthandProperty::as_dynamic_parse_var_tokens"]}
{"id": "C47", "title": "Two-value shorthands", "statement": "overflow, gap and place-items set both of their longhands: the given two values in CSS order, or the single value for both.", "quantifier": "every value list", "why_tests_cant": "arbitrary values", "anchors": ["crates/bevy_flair_css_parser/src/shorthand.rs:parse_simple_shorthand_property", "crates/bevy_flair_css_parser/src/shorthand.rs:parse_gap", "crates/bevy_flair_css_parser/src/shorthand.rs:parse_overflow", "crates/bevy_flair_css_parser/src/shorthand.rs:parse_place_items"]}
{"id": "C48", "title": "InlineStyle is an ordered map", "statement": "set/remove/get on an inline style behave as an insertion ordered map whose last write wins; parsing a string equals setting its declarations in order.", "quantifier": "every operation sequence", "why_tests_cant": "unbounded sequences", "anchors": ["crates/bevy_flair_css_parser/src/inline_styles.rs:InlineStyle"]}
{"id": "C49", "title": "Inline styles of different entities are independent", "statement": "A parse problem in one entity's inline style does not affect the inline style of any other entity.", "quantifier": "every set of entities changed in a frame", "why_tests_cant": "arbitrary sets and orders", "anchors": ["crates/bevy_flair_css_parser/src/inline_styles.rs:parse_inline_style"]}
{"id": "C50", "title": "Variable values survive the text round trip", "statement": "Serialising substituted tokens to CSS and tokenising again yields the same token sequence, so a property set through a variable parses as if written literally.", "quantifier": "every token list produced by the tokenizer", "why_tests_cant": "unbounded token lists", "anchors": ["crates/bevy_flair_style/src/vars.rs:ToCss", "crates/bevy_flair_style/src/to_css.rs", "crates/bevy_flair_css_parser/src/vars.rs:parse_var_tokens"]}
{"id": "C51", "title": "linear() easing points are completed as CSS says", "statement": "linear() control points come out with non-decreasing positions: explicit ones clamped to the running maximum, the first/last defaulting to 0/1, missing runs evenly spaced; values unchanged.", "quantifier": "every point list", "why_tests_cant": "arbitrary lists and reals", "anchors": ["crates/bevy_flair_css_parser/src/parser/animations.rs:parse_easing_linear_parameters"]}
{"id": "C52", "title": "Interpolation hits its end points", "statement": "Interpolating two lengths at 0 gives the first and at 1 the second; for equal units (or with zero) it is linear in between; for incompatible units it switches only at the end.", "quantifier": "all value pairs and t", "why_tests_cant": "reals", "anchors": ["crates/bevy_flair_style/src/animations/reflect.rs:interpolate_val"]}
{"id": "C53", "title": "Animation events are well formed", "statement": "For each transition or animation: at most one Started event, then at most one of Finished, Replaced and Canceled, and nothing after it.", "quantifier": "every history", "why_tests_cant": "histories", "anchors": ["crates/bevy_flair_style/src/components.rs:NodeProperties", "crates/bevy_flair_style/src/animations/transition.rs"]}
{"id": "C54", "title": "transition-property with a shorthand name covers all its longhands", "statement": "Transition options listed for a shorthand apply to each of its longhands, and when several entries name the same property the last one wins.", "quantifier": "every options list", "why_tests_cant": "lists", "anchors": ["crates/bevy_flair_style/src/style_sheet.rs:StyleSheet::resolve_transition_options"]}
{"id": "C55", "title": "Easing functions are anchored", "statement": "steps() yields values on its step grid, jumps at the positions named by the step position, and linear() interpolates its control points.", "quantifier": "every step count, position and input", "why_tests_cant": "reals", "anchors": ["crates/bevy_flair_style/src/animations/easing.rs"]}
{"id": "C56", "title": "Change marks are never lost", "statement": "Once a node is marked for recalculation it stays marked until its style is recalculated, and a reset request takes precedence and re-marks.", "quantifier": "every history of marks", "why_tests_cant": "histories", "anchors": ["crates/bevy_flair_style/src/components.rs:NodeStyleMarker"]}
{"id": "C57", "title": "A @layer block declares its layer where it is written", "statement": "A `@layer name { ... }` block gives the layer its place in the layer order at the position of the block, whatever the block contains (also when it contains no rule), exactly as a `@layer name;` statement at that position would.", "quantifier": "every source with arbitrarily nested blocks", "why_tests_cant": "any nesting and contents of blocks", "anchors": ["crates/bevy_flair_css_parser/src/parser.rs:parse_layer block", "crates/bevy_flair_css_parser/src/internal_loader.rs", "crates/bevy_flair_style/src/builder.rs:StyleSheetBuilder"]}
{"id": "C58", "title": "Style data follows the node's components", "statement": "After each pass, :active, :disabled and :checked hold for an entity iff it has the marker component (Pressed, InteractionDisabled, Checked), its id is its Name, and its classes and attributes are those of its ClassList and AttributeList.", "quantifier": "every history of component insertions, edits and removals between passes", "why_tests_cant": "arbitrary interleavings of edits and change-detection windows", "anchors": ["crates/bevy_flair_style/src/systems.rs:sync_marker_component_system", "crates/bevy_flair_style/src/systems.rs:track_name_changes", "crates/bevy_flair_style/src/systems.rs:apply_classes", "crates/bevy_flair_style/src/systems.rs:apply_attributes"]}
{"id": "C59", "title": "Active animations and transitions yield a value", "statement": "While a transition or animation is active (is_active), sampling it yields a value, whatever its timing function; while it is not active it yields none.", "quantifier": "every options, timing function and frame sequence", "why_tests_cant": "reals, all frame sequences", "anchors": ["crates/bevy_flair_style/src/animations/transition.rs:Transition::is_active", "crates/bevy_flair_style/src/animations/animation.rs:Animation::is_active"]}
{"id": "C60", "title": "Replacing a transition does not make the value jump", "statement": "When a new style replaces a transition that is going on, the new transition starts from the value shown at that moment.", "quantifier": "every transition state and every new target value", "why_tests_cant": "reals, all interruption times", "anchors": ["crates/bevy_flair_style/src/components.rs:NodeProperties::create_transitions", "crates/bevy_flair_style/src/animations/transition.rs:Transition::from_possibly_reversed_transition"]}
{"id": "C61", "title": "Changing animation options keeps the time", "statement": "After any sequence of ticks, pauses and option changes, an animation is in the state and shows the value that its present options give at the (unpaused) time that has passed: update_options behaves as if the options had been given from the start.", "quantifier": "every sequence of ticks and option changes", "why_tests_cant": "unbounded histories", "anchors": ["crates/bevy_flair_style/src/animations/animation.rs:Animation::update_options", "crates/bevy_flair_style/src/animations/animation.rs:Animation::total_elapsed"]}
{"id": "C62", "title": "Components of an animation or transition come in any order", "statement": "In the 'animation' and 'transition' shorthands the components of one entry may be written in any order (the first time is the duration, the second the delay, a name is not a keyword): every such order is accepted and gives exactly the written components.", "quantifier": "every list of components and every order of them", "why_tests_cant": "unbounded number of orders and values", "anchors": ["crates/bevy_flair_css_parser/src/parser/animations.rs:parse_animation_shorthand", "crates/bevy_flair_css_parser/src/parser/animations.rs:parse_transition_shorthand"]}
{"id": "C63", "title": "A shorthand only sets its own longhands", "statement": "Whatever text is given to a default shorthand, directly or through a variable, the declarations it expands to name only longhands registered for that shorthand, each at most once; no default shorthand name is registered twice or is a longhand of another.", "quantifier": "every default shorthand and every token list", "why_tests_cant": "infinitely many texts, and a parser composed of several optional parts", "anchors": ["crates/bevy_flair_css_parser/src/shorthand.rs:ShorthandProperty::parse", "crates/bevy_flair_css_parser/src/shorthand.rs:register_default_shorthand_properties"]}
{"id": "C64", "title": "No text crashes a declaration", "statement": "Parsing a declaration of a default longhand or shorthand, or the substituted text of one that contains var(), ends with a result or a reported error and never with a panic.", "quantifier": "every default longhand and shorthand and every token list", "why_tests_cant": "all texts a style sheet author can write", "anchors": ["crates/bevy_flair_css_parser/src/shorthand.rs:parse_transform", "crates/bevy_flair_css_parser/src/shorthand.rs:parse_four_values", "crates/bevy_flair_css_parser/src/calc.rs:parse_calc_value"]}
{"id": "C65", "title": "An accepted shorthand resets all its longhands", "statement": "If a shorthand declaration is accepted, every longhand of the shorthand gets a value from it, so that no earlier declaration of one of them survives.", "quantifier": "every default shorthand and every accepted text", "why_tests_cant": "all accepted texts", "anchors": ["crates/bevy_flair_css_parser/src/shorthand.rs:parse_border_inner", "crates/bevy_flair_css_parser/src/shorthand.rs:parse_background", "crates/bevy_flair_css_parser/src/shorthand.rs:parse_grid", "crates/bevy_flair_css_parser/src/shorthand.rs:parse_transform"]}
{"id": "C66", "title": "transform sets the longhand of each function", "statement": "A transform text made of an optional translation, scaling and rotation in this order is accepted and sets exactly the longhands translate, scale and rotate of the functions that are there, with the values of their arguments; and every accepted text is of this form or a global keyword.", "quantifier": "every text of transform", "why_tests_cant": "arbitrary arguments, including calc()", "anchors": ["crates/bevy_flair_css_parser/src/shorthand.rs:parse_transform", "crates/bevy_flair_css_parser/src/shorthand.rs:parse_ui_transform_translation", "crates/bevy_flair_css_parser/src/shorthand.rs:parse_ui_transform_scale", "crates/bevy_flair_css_parser/src/shorthand.rs:parse_ui_transform_rotation"]}
{"id": "C67", "title": "flex forms", "statement": "The forms of flex (none, one number, two numbers, number and basis, two numbers and basis, basis) are accepted and set grow, shrink and basis as CSS says; and every accepted text has one of the forms or is a global keyword.", "quantifier": "every text of flex", "why_tests_cant": "arbitrary numbers and bases", "anchors": ["crates/bevy_flair_css_parser/src/shorthand.rs:parse_flex"]}
{"id": "C68", "title": "Animation and transition declarations follow the cascade", "statement": "For every element, each animation-* and transition-* longhand (set directly or through its shorthand) ends with the list given by the declaration that wins the cascade - layer order, specificity, rule order, declaration order, inline style last - exactly as an ordinary property does; with no applicable declaration it has no list.", "quantifier": "every style sheet source, element and inline style", "why_tests_cant": "unbounded number of rules, layers and shorthand/longhand interleavings", "anchors": ["crates/bevy_flair_style/src/style_sheet.rs:resolve_transition_options", "crates/bevy_flair_style/src/style_sheet.rs:resolve_animation_configs", "crates/bevy_flair_style/src/builder.rs:StyleSheetBuilder::build", "crates/bevy_flair_style/src/animations/properties.rs"]}
{"id": "C69", "title": "Removing an inline style removes its effect", "statement": "When an entity's inline style is removed, or emptied, its declarations no longer apply to the entity.", "quantifier": "every history of writes, removals and frames", "why_tests_cant": "histories are unbounded", "anchors": ["crates/bevy_flair_css_parser/src/inline_styles.rs:parse_inline_style", "crates/bevy_flair_style/src/systems.rs:set_property_values"]}
{"id": "C70", "title": "Composite values interpolate member by member", "statement": "Interpolating two colors, vectors, rotations, text shadows, lists of box shadows or lists of gradients gives the first at 0 and the second at 1; colors and vectors move linearly in every component, rotations turn the shorter way; at every time in between each member (length, color, angle, hint, position) is at the point of its own way.", "quantifier": "all value pairs of these types", "why_tests_cant": "reals and arbitrary lists", "anchors": ["crates/bevy_flair_style/src/animations/reflect.rs:interpolate_list_with", "crates/bevy_flair_style/src/animations/reflect.rs:interpolate_gradient", "crates/bevy_flair_style/src/animations/reflect.rs:interpolate_shadow_style"]}
{"id": "C71", "title": "Removed animations release the property", "statement": "When an animation is taken off an entity's animation list, it stops showing: from the next frame on the property no longer gets its values, and shows its computed value (or another running animation or transition).", "quantifier": "all sets of running animations, fill modes, lists of names and later frames", "why_tests_cant": "The outcome depends on the fill mode, the phase in which the animation is removed, and on what else runs on the node; tests check a removal in the active phase.", "anchors": ["crates/bevy_flair_style/src/components.rs:set_animations", "crates/bevy_flair_style/src/components.rs:clear_finished_and_canceled_animations", "crates/bevy_flair_style/src/systems.rs:tick_animations", "crates/bevy_flair_style/src/animations/animation.rs:sample_value"]}
{"id": "C72", "title": "Single values are read exactly", "statement": "A token that is no calc() is accepted as a length exactly if it is auto, a number, a percentage or a number with one of the units px, vw, vh, vmin, vmax; as a number exactly if it is a number or one with the unit px; as an angle exactly if it is none, 0 or has a unit of angles; and it is read as that value (angles as the direction they show).", "quantifier": "every token", "why_tests_cant": "infinitely many tokens and numbers", "anchors": ["crates/bevy_flair_css_parser/src/reflect/ui.rs:parse_val", "crates/bevy_flair_css_parser/src/reflect/ui.rs:parse_f32", "crates/bevy_flair_css_parser/src/reflect/ui.rs:parse_angle"]}
{"id": "C73", "title": "border, outline, background and grid shorthands", "statement": "The shorthands border and border-top/right/bottom/left, outline, background, background-image, grid-template and grid accept exactly the forms CSS gives to them, and set their longhands to the values in them; longhands of parts that are left out are not touched (for the grids they get their initial values where CSS says so).", "quantifier": "every text of these shorthands, every number of layers", "why_tests_cant": "texts are unbounded lists of tokens, and the forms overlap", "anchors": ["crates/bevy_flair_css_parser/src/shorthand.rs:parse_border_inner", "crates/bevy_flair_css_parser/src/shorthand.rs:parse_outline", "crates/bevy_flair_css_parser/src/shorthand.rs:parse_background", "crates/bevy_flair_css_parser/src/shorthand.rs:parse_background_image_inner", "crates/bevy_flair_css_parser/src/shorthand.rs:parse_grid_template", "crates/bevy_flair_css_parser/src/shorthand.rs:parse_grid"]}
{"id": "C74", "title": "Values of longhands are read exactly", "statement": "The longhands of pairs of numbers or lengths, rectangles, aspect ratios, clip margins, z-index, box-shadow, text-shadow, line-height and the image mode accept exactly the forms CSS (or the documentation) gives to them, with a possible !important, and read the value that is written, every part in its place; global keywords are accepted by all of them.", "quantifier": "every text of such a declaration, every number of shadows", "why_tests_cant": "texts are unbounded lists of tokens with optional parts before and after each other", "anchors": ["crates/bevy_flair_css_parser/src/reflect/ui.rs:parse_vec2", "crates/bevy_flair_css_parser/src/reflect/ui.rs:parse_val2", "crates/bevy_flair_css_parser/src/reflect/ui.rs:parse_rect", "crates/bevy_flair_css_parser/src/reflect/ui.rs:parse_overflow_clip_margin", "crates/bevy_flair_css_parser/src/reflect/ui.rs:parse_aspect_ratio", "crates/bevy_flair_css_parser/src/reflect/ui.rs:parse_z_index", "crates/bevy_flair_css_parser/src/reflect/ui.rs:parse_box_shadow", "crates/bevy_flair_css_parser/src/reflect/text.rs:parse_text_shadow", "crates/bevy_flair_css_parser/src/reflect/text.rs:parse_line_height", "crates/bevy_flair_css_parser/src/reflect/image.rs:parse_image_mode", "crates/bevy_flair_css_parser/src/utils.rs:parse_property_value_with"]}
{"id": "C75", "title": "Grid tracks and placements are read exactly", "statement": "grid-auto-rows/columns, grid-template-rows/columns and grid-row/column accept exactly lists of tracks (with minmax(), fit-content() and repeat()) and placements, in their order, with the sizes and the number of repetitions that are written; zero and negative repetitions and lines outside of the range are rejected.", "quantifier": "every text of such a declaration, every number of tracks, every number", "why_tests_cant": "texts are unbounded lists of tokens, numbers are unbounded", "anchors": ["crates/bevy_flair_css_parser/src/reflect/grid.rs:parse_grid_track", "crates/bevy_flair_css_parser/src/reflect/grid.rs:parse_grid_track_vec", "crates/bevy_flair_css_parser/src/reflect/grid.rs:parse_repeat_function_args", "crates/bevy_flair_css_parser/src/reflect/grid.rs:parse_repeated_grid_track_vec", "crates/bevy_flair_css_parser/src/reflect/grid.rs:parse_grid_placement"]}
{"id": "C76", "title": "Keywords of enumerations", "statement": "A longhand whose value is an enumeration accepts exactly the names of the unit variants, up to hyphens and the case of letters, and each keyword gives the variant of its name; every keyword listed in the error message for a wrong keyword is accepted and gives the variant it is listed for.", "quantifier": "every enumeration, every keyword", "why_tests_cant": "enumerations are those of the user's types, with any variants", "anchors": ["crates/bevy_flair_css_parser/src/reflect/enums.rs:create_unit_enum_from_reflection", "crates/bevy_flair_css_parser/src/reflect/enums.rs:enum_variant_to_css_case"]}
{"id": "C77", "title": "Gradients mean what is written", "statement": "A gradient value is exactly one of linear-gradient, radial-gradient and conic-gradient with an optional first parameter (direction, shape and size, position, start, color space with a hue) and stops; each color gives one stop per position or an automatic one, a hint between commas belongs to the stop before it, and when the first stop is neither at zero nor automatic one more stop of its color is put at zero. A list of gradients with commas between them is the value of the background and border gradient properties, and nothing else is accepted.", "quantifier": "every token sequence, color parser and list of stops", "why_tests_cant": "the grammar is unbounded in the number of stops, positions, hints and gradients, and optional parts can be told apart only by what follows them", "anchors": ["crates/bevy_flair_css_parser/src/reflect/gradient.rs:parse_gradient", "crates/bevy_flair_css_parser/src/reflect/gradient.rs:parse_linear_gradient", "crates/bevy_flair_css_parser/src/reflect/gradient.rs:parse_radial_gradient", "crates/bevy_flair_css_parser/src/reflect/gradient.rs:parse_conic_gradient", "crates/bevy_flair_css_parser/src/utils.rs:combined_parse", "crates/bevy_flair_css_parser/src/lib.rs:parse_comma_separated_with"]}
{"id": "C78", "title": "Media conditions follow the window", "statement": "After every frame, the active rules of every node whose sheet is loaded are exactly those of the rulesets matching it all of whose media conditions hold at that moment: for the color scheme of the window its camera renders to, and the size, aspect ratio and resolution of its render target.", "quantifier": "every history of theme changes, render-target changes, sheet and ruleset changes, spawns and frames (cameras fixed for the partial theorem), every node, every list of media conditions", "why_tests_cant": "Whether a node is recalculated depends on flags recorded by short-circuiting evaluations in earlier frames; only an invariant over all histories shows that a skipped recalculation would have changed nothing.", "anchors": ["crates/bevy_flair_style/src/systems.rs:compute_window_media_features", "crates/bevy_flair_style/src/systems.rs:set_nodes_for_style_recalculation_on_window_media_features_change", "crates/bevy_flair_style/src/systems.rs:set_nodes_for_style_recalculation_on_render_target_info_change", "crates/bevy_flair_style/src/systems.rs:MediaFeaturesProviderImpl", "crates/bevy_flair_style/src/media_selector.rs:MediaSelectors"]}
{"id": "C79", "title": "Media queries mean what they say", "statement": "The prelude of an @media rule is accepted exactly when it is a sequence of parenthesised features joined by and \u2014 prefers-color-scheme, or width, height, resolution or aspect-ratio with an optional min- or max- prefix, each with a value of its kind \u2014 and it yields exactly the conditions spelled, in order: min- as an inclusive lower bound, max- as an inclusive upper bound, no prefix as equality. Nothing else is accepted: no media types, not, or, commas, comparisons or bare features.", "quantifier": "every sequence of tokens, of any length and nesting", "why_tests_cant": "The grammar has unboundedly many sentences and non-sentences; tests show a few of each, not that acceptance and meaning coincide on all.", "anchors": ["crates/bevy_flair_css_parser/src/parser/media_selectors.rs:parse_media_selectors", "crates/bevy_flair_css_parser/src/parser/media_selectors.rs:parse_media_selector_atom", "crates/bevy_flair_css_parser/src/parser/media_selectors.rs:parse_selector_range", "crates/bevy_flair_css_parser/src/parser/media_selectors.rs:parse_ratio"]}
{"id": "C80", "title": "Values follow the variables", "statement": "After every frame, the property values of every node whose sheet is loaded are those its declarations give with the custom properties it sees at that moment: for every name the definition of the nearest node, itself included, at any depth.", "quantifier": "every history of rule changes, sheet modifications, hierarchy changes and frames, every hierarchy, every node, every assignment of custom properties (for the partial theorem only leaves are moved, and a modified sheet is that of whole subtrees)", "why_tests_cant": "Only nodes whose own definitions changed mark their descendants; whether that reaches every node that uses a definition depends on the whole history and on hierarchies of any depth.", "anchors": ["crates/bevy_flair_style/src/systems.rs:calculate_style_and_set_vars", "crates/bevy_flair_style/src/systems.rs:set_property_values", "crates/bevy_flair_style/src/systems.rs:mark_as_changed_on_style_sheet_change", "crates/bevy_flair_style/src/systems.rs:VarResolverParam", "crates/bevy_flair_style/src/components.rs:NodeVars::replace_vars"]}
{"id": "C81", "title": "Font families and image paths stand for the right asset", "statement": "In every style sheet that loads, a declaration `font-family: F` (or an image path) written directly gives its elements the font of the last `@font-face` named F among the sheet's own and imported blocks (the image at that path), and nothing when there is none; all other values and the order of declarations are unchanged. Imported rules keep the meaning they have in their own sheet. A name that comes out of `var()` or is inherited gives, after every history of frames, the same font as if it had been written directly, and no unresolved name ever reaches a component.", "quantifier": "all lists of rules, declarations and @font-face blocks, all answers of the asset server, all imports, all hierarchies and histories of frames", "why_tests_cant": "the result depends on the order of blocks, on nesting of imports and on which frame restyles which element", "anchors": ["crates/bevy_flair_style/src/placeholder.rs:try_resolve_placeholder", "crates/bevy_flair_style/src/builder.rs:build", "crates/bevy_flair_style/src/builder.rs:resolve_placeholders", "crates/bevy_flair_style/src/builder.rs:embed_style_sheet", "crates/bevy_flair_style/src/systems.rs:resolve_placeholders"]}
{"id": "C82", "title": "No file crashes the loader", "statement": "Loading a style sheet file, or parsing an inline sheet, ends with a sheet or with reported errors and never with a panic, whatever the text, the error mode and the imported files.", "quantifier": "every file (as a tree of rules, declarations and tokens), every set of imported files, every error mode", "why_tests_cant": "all texts a style sheet author can write, including errors anywhere", "anchors": ["crates/bevy_flair_css_parser/src/parser.rs:prefix_eq_ignore_ascii_case", "crates/bevy_flair_css_parser/src/internal_loader.rs:load_stylesheet", "crates/bevy_flair_style/src/builder.rs:define_layer"]}
{"id": "C83", "title": "Keyframes and font faces are those written", "statement": "A sheet that loads has, under each name, the keyframes of the last @keyframes of that name among its own and imported rules (of its own, only the first of a name counts), with the times and the declarations that are written and those in error left out; and the font faces of its own and imported @font-face rules in order, each with the last family and source in it.", "quantifier": "every file that loads, every set of imports", "why_tests_cant": "arbitrary nesting of rules, errors and imports", "anchors": ["crates/bevy_flair_css_parser/src/parser/keyframes.rs:KeyframesParser", "crates/bevy_flair_css_parser/src/parser/font_face.rs:parse_font_face", "crates/bevy_flair_css_parser/src/internal_loader.rs:load_stylesheet"]}
{"id": "C84", "title": "Loading follows the imports", "statement": "Loading a file ends; it gives a sheet exactly when every imported file gives a sheet and the file can be read with them, and the result does not depend on anything else; a cycle of imports is reported as an error.", "quantifier": "every set of files and every graph of imports", "why_tests_cant": "arbitrary graphs of imports", "anchors": ["crates/bevy_flair_css_parser/src/imports_parser.rs:extract_imports", "crates/bevy_flair_css_parser/src/loader.rs:load", "crates/bevy_flair_css_parser/src/internal_loader.rs:load_stylesheet"]}
{"id": "C85", "title": "Styles follow the hierarchy", "statement": "After any history of spawning, despawning, moving, reordering and changing elements, the active rules of every element whose sheet is loaded are exactly those whose selector it matches in the present hierarchy, including `:empty`, `:first-child`, `:last-child` and sibling combinators.", "quantifier": "all hierarchies, all histories of structural and data changes, all sheets and selectors, all orders of the parallel loops", "why_tests_cant": "what is re-matched depends on flags left by earlier matches on other elements; stale styles only show up for particular combinations of selector, earlier hierarchy and edit", "anchors": ["crates/bevy_flair_style/src/systems.rs:set_related_nodes_for_style_recalculation", "crates/bevy_flair_style/src/systems.rs:calculate_is_root", "crates/bevy_flair_style/src/systems.rs:mark_changed_nodes_for_recalculation", "crates/bevy_flair_style/src/css_selector/element.rs:apply_selector_flags", "crates/bevy_flair_style/src/components.rs:NodeStyleSelectorFlags"]}
{"id": "C86", "title": "A style reaches exactly the field of its property", "statement": "Applying values to a component writes each given value into the field of its property, through nested structs and enums, without a panic or an error; properties without a value and all other fields keep their contents; the result does not depend on the order of the properties, and no two properties of a component share a field.", "quantifier": "every declaration of properties (nested to any depth), every component content, every set of values of the right types", "why_tests_cant": "all layouts and contents, unbounded nesting", "anchors": ["crates/bevy_flair_core/src/component_property.rs:apply_value_using_reflect", "crates/bevy_flair_core/src/component_properties.rs:impl_extract_component_properties", "crates/bevy_flair_core/src/component_properties.rs:internal_apply_values"]}
{"id": "C87", "title": "Every built-in css name leads to its field", "statement": "The default plugins start without a panic whatever order the shorthands come in; each built-in css name is resolved to its own field, has a parser for the type of the field, and no two names lead to the same field; whatever the text of a shorthand is, each longhand it sets is resolved; the text properties, and only they, inherit when unset; additions of an application do not change any of this.", "quantifier": "every built-in name, every text of a shorthand, every sequence of further registrations", "why_tests_cant": "arbitrary additions and texts", "anchors": ["crates/bevy_flair_core/src/impls.rs:ImplComponentPropertiesPlugin", "crates/bevy_flair_css_parser/src/reflect.rs:ReflectParsePlugin", "crates/bevy_flair_css_parser/src/shorthand.rs:ShorthandPropertiesPlugin", "crates/bevy_flair_css_parser/src/parser.rs:parse_ruleset_property"]}
{"id": "C88", "title": "Animation and transition declarations are read exactly", "statement": "For every text of an animation-* or transition-* declaration: a longhand is accepted exactly when it is a comma separated list of tokens each of which says a value of that longhand (a time, a count, a word, a timing function, a name), with those values in that order; animation and transition accept only lists of tokens that each give one component, none twice and the delay after the duration; a name in any other case of letters means the same; nothing crashes; a text that says nothing by itself is kept for later exactly when it has variables.", "quantifier": "all token lists, all spellings of the property names, all timing functions, all results of the parser of variables", "why_tests_cant": "unit tests read some declarations; which texts are accepted, refused or crash ranges over all token lists", "anchors": ["crates/bevy_flair_css_parser/src/parser/animations.rs:parse_animation_property", "crates/bevy_flair_css_parser/src/parser/animations.rs:parse_transition_property", "crates/bevy_flair_css_parser/src/parser/animations.rs:parse_easing_function", "crates/bevy_flair_css_parser/src/parser/animations.rs:parse_duration"]}
{"id": "C89", "title": "A declaration with variables means the declaration with the values in place", "statement": "A declaration whose text uses var() gives an element exactly the value (and the importance) that the same declaration gives when every var(--x) in it, at any depth inside functions such as calc(), is replaced by the text of the variable of that element, variables inside variables being replaced too; it gives no value when a variable is missing, when the replacing does not end, or when the replaced text is not one of the property. A declaration without variables is read when the style sheet is loaded.", "quantifier": "all longhands and shorthands of the library, all texts, all variables of the element and their texts (also nested in each other)", "why_tests_cant": "texts nest without bound, and there are infinitely many ways to split a text into variables", "anchors": ["crates/bevy_flair_css_parser/src/parser.rs:parse_ruleset_property", "crates/bevy_flair_css_parser/src/vars.rs:parse_var_tokens", "crates/bevy_flair_css_parser/src/reflect.rs:as_dynamic_parse_var_tokens", "crates/bevy_flair_style/src/vars.rs:resolve"]}
{"id": "C90", "title": "Selectors mean what they say", "statement": "A rule applies to exactly the elements its selector describes: type, id, classes, attributes, :root, :empty, the states (:hover, :active, :focus, :focus-visible, :disabled, :checked), the nth-selectors, :is, :not, :has, ::before and ::after, and all combinators, nested arbitrarily, have the meaning of CSS Selectors on the hierarchy of elements; matching never crashes.", "quantifier": "every hierarchy, every element, every selector", "why_tests_cant": "selectors nest arbitrarily and hierarchies are unbounded", "anchors": ["crates/bevy_flair_style/src/css_selector/element.rs:ElementRef", "crates/bevy_flair_style/src/css_selector/mod.rs:CssSelector::matches_selector", "crates/bevy_flair_style/src/css_selector/mod.rs:CssSelectorParser", "crates/bevy_flair_style/src/systems.rs:calculate_is_root"]}
{"id": "C91", "title": ":hover and :active follow the pointer", "statement": "After every frame a node is :hover exactly when the pointer is over it (Hovered, or Interaction hovered or pressed) and :active exactly when it is pressed (Pressed, or Interaction pressed), whatever the order in which the systems run.", "quantifier": "every history of changes of the components, every order of the systems", "why_tests_cant": "histories are unbounded, the scheduler picks the order", "anchors": ["crates/bevy_flair_style/src/systems.rs:sync_hovered_system", "crates/bevy_flair_style/src/systems.rs:sync_interaction_system", "crates/bevy_flair_style/src/systems.rs:sync_marker_component_system"]}
{"id": "C92", "title": "The type of an element is its type name", "statement": "The type of an element that type selectors see is the TypeName of its entity, whenever it is inserted, replaced or removed.", "quantifier": "every history of insertions and removals", "why_tests_cant": "histories are unbounded", "anchors": ["crates/bevy_flair_style/src/components.rs:on_insert_type_name"]}
{"id": "C93", "title": "A written color is the color shown", "statement": "Every way CSS Color 4 offers to write a color (names, transparent, hex with 3, 4, 6 or 8 digits, rgb()/rgba() and hsl()/hsla() with commas or spaces, hwb(), lab(), lch(), oklab(), oklch(), color() with a predefined space, percentages, none, alpha after a comma or slash) has one meaning; the value parsed for it is a color of bevy that stands for the same color (rgb() up to half a step of 1/255 per component), numbers out of range are clamped, and nothing else is accepted except that currentcolor and the spaces bevy does not have are rejected.", "quantifier": "all tokens and argument lists of a color", "why_tests_cant": "there are infinitely many argument lists, in eight notations with optional parts, and the components are real numbers", "anchors": ["crates/bevy_flair_css_parser/src/reflect/color.rs:parse_color", "crates/bevy_flair_css_parser/src/reflect/color.rs:from_lab", "crates/bevy_flair_css_parser/src/reflect/color.rs:from_rgba"]}
{"id": "C94", "title": "Nested rules and specificity", "statement": "A rule written inside of another one applies as CSS nesting says: & stands for the elements of all selectors of the outer rule and counts as the most specific of them, a selector without & or beginning with a combinator is seen from them; at any depth, also inside of nested @media and @layer blocks. The specificity of a selector is that of Selectors 4, and selectors are ordered by it.", "quantifier": "every selector, every nesting of rules, conditions and layers, every hierarchy", "why_tests_cant": "selectors, their lists and their nesting are unbounded, and specificity is packed into one number with saturating fields", "anchors": ["crates/bevy_flair_style/src/css_selector/mod.rs:replace_parent_selector", "crates/bevy_flair_style/src/css_selector/mod.rs:parse_comma_separated_for_nested", "crates/bevy_flair_style/src/css_selector/mod.rs:specificity", "crates/bevy_flair_css_parser/src/internal_loader.rs:process_ruleset_recursively", "crates/bevy_flair_css_parser/src/parser.rs:CssRulesetBodyParser"]}
{"id": "C95", "title": "From what is written to what is computed", "statement": "For any sheets, inline styles, hierarchy and windows: after a recalculation of the whole tree every element has the computed values that CSS gives for what is written in the sheets: rules select what they say, conditions and layers count as written, the cascade decides, variables are inherited and put in place, values are inherited down the tree.", "quantifier": "every set of sources, every inline style, every hierarchy, every state of the windows, at once", "why_tests_cant": "it composes parsing, nesting, selector matching, media conditions, cascade, variables and inheritance, each over unbounded inputs", "anchors": ["crates/bevy_flair_css_parser/src/internal_loader.rs:load_stylesheet", "crates/bevy_flair_style/src/systems.rs:calculate_style_and_set_vars", "crates/bevy_flair_style/src/systems.rs:set_property_values", "crates/bevy_flair_style/src/systems.rs:compute_property_values", "crates/bevy_flair_style/src/style_sheet.rs:get_matching_ruleset_ids_for_element"]}
{"id": "C96", "title": "After any history of changes the style is that of the current page", "statement": "Whatever sequence of changes an application makes - classes, states, attributes, inline styles, media features, sheets modified or replaced - after each frame every element has exactly the variables, declared values and computed values that CSS gives for the sheets as written and the elements as they are now, although only the marked elements are recalculated.", "quantifier": "for all hierarchies, sources, numbers of frames, changes in each frame, and orders of the parallel loop", "why_tests_cant": "The recalculation is incremental: correctness after a frame depends on flags, markers, variables and computed values left by all the frames before; tests show some sequences.", "anchors": ["crates/bevy_flair_style/src/systems.rs:mark_changed_nodes_for_recalculation", "crates/bevy_flair_style/src/systems.rs:calculate_style_and_set_vars", "crates/bevy_flair_style/src/systems.rs:set_property_values", "crates/bevy_flair_style/src/systems.rs:compute_property_values"]}
{"id": "C97", "title": "Reporting an error never crashes, and points at the text in error", "statement": "Whatever is wrong in a file or in the value of a variable, the error is turned into a report: the load (or the application) goes on, and the marked range is the erroneous token of the text.", "quantifier": "every text, every position and token in it, every kind of error location", "why_tests_cant": "line ends, multi-byte characters, line lengths and positions combine without bound", "anchors": ["crates/bevy_flair_css_parser/src/error.rs:into_range", "crates/bevy_flair_css_parser/src/error.rs:add_error", "crates/bevy_flair_css_parser/src/reflect.rs:as_dynamic_parse_var_tokens", "crates/bevy_flair_css_parser/src/reflect/color.rs:parse_color"]}
{"id": "C98", "title": "Cubic B\u00e9zier easing follows its curve", "statement": "A cubic-bezier() timing function starts at 0 and ends at 1; the keywords ease, ease-in, ease-out and ease-in-out stand for the four curves CSS gives for them; and at every time in between the eased value is the height of the curve of CSS at that time, up to a small error.", "quantifier": "every cubic-bezier() with any four numbers, the four keywords, every time, every tolerance of the search", "why_tests_cant": "the value is found by a numeric search whose number of steps is fixed; whether it gets there depends on the curve and on the time, and a test samples a few times of a few curves", "anchors": ["crates/bevy_flair_style/src/animations/curves.rs:CubicBezierEaseCurve", "crates/bevy_flair_style/src/animations/easing.rs:into_easing_curve", "crates/bevy_flair_css_parser/src/parser/animations.rs:parse_easing_cubic_bezier_parameters"]}
{"id": "C99", "title": "An element with pseudo element support has one ::before and one ::after", "statement": "After every frame an element with PseudoElementsSupport has exactly one ::before child, its first, and exactly one ::after child, its last; they are texts if it is a text and nodes otherwise; the children in between are those the application gave it, in the order they would have without support.", "quantifier": "every history of spawns, moves, insertions and removals of children and of the support component, and frames", "why_tests_cant": "the two children are made by a hook at insertion and put in place by a system that looks at changes; what is there after many operations depends on all of them", "anchors": ["crates/bevy_flair_style/src/components.rs:PseudoElementsSupport", "crates/bevy_flair_style/src/components.rs:on_insert_pseudo_elements_support", "crates/bevy_flair_style/src/systems.rs:sort_pseudo_elements"]}
{"id": "C100", "title": "A redraw is requested exactly while something moves", "statement": "In an application that only draws when asked to, a frame ends with a redraw request exactly when a transition or an unpaused animation of some node still waits or runs. When no redraw is requested, nothing is missed: in all later frames in which nothing else happens every node shows what it shows now and no event occurs, however much time passes. When all transitions and animations have had their time, requests stop.", "quantifier": "every set of nodes after every history of frames; every sequence of later frames with every passing of time", "why_tests_cant": "the claim is about all frames that are not drawn, and about the end of requests after unboundedly many frames", "anchors": ["crates/bevy_flair_style/src/systems.rs:emit_redraw_event", "crates/bevy_flair_style/src/components.rs:has_tickable_animations_or_transitions", "crates/bevy_flair_style/src/systems.rs:tick_animations"]}
{"id": "C101", "title": "A file that imports files that import files", "statement": "Loading a style sheet file whose @import rules name files that import further files, to any depth, never crashes on proper layer names, succeeds exactly if every declaration of all the files is acceptable and no file loaded in the mode that returns errors has one, and gives every element the winner of the cascade over the declarations of all the files in the order in which they would be written if each @import were replaced by the contents of the file, inside @layer when the import asks for a layer; layers are ordered by the first mention of a layer in the file, or the first declaration in it in an imported one.", "quantifier": "every finite tree of files, layers at every level, error mode of every file, selectors, element and inline style", "why_tests_cant": "the tree has no bound in depth or width, each level is built, emptied of rules without declarations, renumbered and merged into the next; tests import one or two files", "anchors": ["crates/bevy_flair_css_parser/src/loader.rs:load", "crates/bevy_flair_css_parser/src/internal_loader.rs:load_stylesheet", "crates/bevy_flair_style/src/builder.rs:embed_style_sheet", "crates/bevy_flair_style/src/builder.rs:remove_all_empty_rulesets"]}
{"id": "C102", "title": "A file on disk means what its text and the texts of its imports say, in order", "statement": "When a stylesheet file loads, the files it names have been read in one and only one way: each rule, block, nested rule and declaration by its text alone (declarations that cannot be read, unknown at-rules and unreadable selectors are left out), each @import by the contents of the imported file, in the layer asked for. Every element gets, for each property, custom property and transition/animation declaration, the winner of the CSS cascade over that one list of declarations. Conversely a file whose imports exist and are not circular, and whose declarations are acceptable, loads (when nothing in the files crashes the loader, C82, and files whose errors are to be returned have none).", "quantifier": "all sets of files on a disk, all import graphs, all parsers of values and selectors, all elements", "why_tests_cant": "The number of files, their nesting and the interplay of imports, layers, nesting and error recovery have no bound; tests only cover single small files", "anchors": ["crates/bevy_flair_css_parser/src/loader.rs:CssStyleSheetLoader", "crates/bevy_flair_css_parser/src/parser.rs:parse_css", "crates/bevy_flair_css_parser/src/imports_parser.rs:extract_imports", "crates/bevy_flair_style/src/builder.rs:embed_style_sheet"]}
{"id": "C103", "title": "A frame that changes nothing does nothing", "statement": "A value given to the library comes out again with its type, and two values are equal exactly when their types are the same and say so. When, after a frame, the style of a node is what it was (nothing was recalculated, or the recalculation gave the same transitions, animations and values), then in that frame no component of the node is written, no transition starts or is replaced, no event is emitted and nothing panics.", "quantifier": "all types and values, all nodes, all frames, whatever is recalculated elsewhere, with and without debug assertions", "why_tests_cant": "whether a value is equal to itself depends on the value (NaN) and its type, and the spurious effect appears only in later frames or when some other node is recalculated", "anchors": ["crates/bevy_flair_core/src/reflect_value.rs:ReflectValue", "crates/bevy_flair_core/src/property_map.rs:PropertyMap", "crates/bevy_flair_style/src/components.rs:create_transitions", "crates/bevy_flair_style/src/components.rs:apply_computed_properties", "crates/bevy_flair_style/src/components.rs:clear_pending_computed_properties", "crates/bevy_flair_style/src/systems.rs:apply_computed_properties", "crates/bevy_flair_css_parser/src/calc.rs:parse_calc_product"]}
{"id": "C104", "title": "Debug assertions do not fail", "statement": "In a build with debug assertions no stylesheet, no animation and no history of spawning, despawning, restyling and resetting nodes makes an assertion of the style engine fail (a panic).  It is false: interpolating between a zero length and auto fails one, so does linear() with a first position below 0% or a position above 100%, so does a styled entity that is not below a UI root, two frames after it is spawned, and so does a node spawned during PostUpdate between StyleSystems::Prepare and the calculation of the styles.  It holds for everything else: animations however they are ticked and updated, keyframes whatever is written in them, and nodes below a root that are spawned before StyleSystems::Prepare or after StyleSystems::ComputeProperties.", "quantifier": "all pairs of lengths, all lists of control points, all lives of an animation, all @keyframes blocks, and all histories of frames of any number of nodes", "why_tests_cant": "an assertion that fails needs a particular pair of values or history; tests only run some", "anchors": ["crates/bevy_flair_style/src/animations/reflect.rs:interpolate_val", "crates/bevy_flair_style/src/animations/easing.rs:into_easing_curve", "crates/bevy_flair_style/src/animations/animation.rs:is_on_last_iteration", "crates/bevy_flair_style/src/animations/keyframes.rs:resolve", "crates/bevy_flair_style/src/components.rs:compute_values_debug_assertions", "crates/bevy_flair_style/src/components.rs:set_animation_computed_values", "crates/bevy_flair_style/src/systems.rs:set_pending_compute_property_values", "crates/bevy_flair_style/src/systems.rs:set_property_values"]}
{"id": "C105", "title": "Values written as CSS read back", "statement": "The CSS text of a length, of a number and of a slice of them is accepted by the library's own parsers and gives the same values in the same order, and that of a pseudo state or pseudo element the same selector; writing what was read gives the same text.  It is false for values with more than one decimal, which come back rounded to the nearest tenth (0.04px as 0px), and for NaN and the infinities, whose text is no length at all.", "quantifier": "all lengths in all units, all finite numbers, slices of any length, all pseudo states and pseudo elements", "why_tests_cant": "rounding, the digits printed and the tokenizer have to agree for every number; tests only print a few", "anchors": ["crates/bevy_flair_style/src/to_css.rs:round_float", "crates/bevy_flair_style/src/to_css.rs:to_css", "crates/bevy_flair_style/src/lib.rs:NodePseudoStateSelector", "crates/bevy_flair_css_parser/src/reflect/ui.rs:parse_val"]}
{"id": "C106", "title": "A frame does the same in every schedule", "statement": "Systems the plugins leave unordered (those of PreUpdate, of Prepare, of SetStyleData, the ticking of animations, the events) may run in any order: the components, values, animations, events, redraw request and marks after a frame, and after any history of frames, are the same for every schedule Bevy may choose, whatever the sheets, nodes and components.  It is false when a node gets a new Interaction and a new Pressed or Hovered in the same frame: the schedule then decides if it is :active or :hover.", "quantifier": "all orders of the systems that respect the declared ordering, all worlds, all histories with a different order in each frame", "why_tests_cant": "a test runs one schedule; which one depends on the executor and the machine", "anchors": ["crates/bevy_flair_style/src/lib.rs:FlairStylePlugin", "crates/bevy_flair_style/src/lib.rs:StyleSystems", "crates/bevy_flair_style/src/systems.rs:reset_properties", "crates/bevy_flair_style/src/systems.rs:tick_animations", "crates/bevy_flair_style/src/systems.rs:sync_interaction_system", "crates/bevy_flair_css_parser/src/lib.rs:FlairCssParserPlugin"]}
{"id": "C107", "title": "Shared maps and marks are never seen", "statement": "The library shares the maps of computed values between frames, compares them by identity and leaves out nodes that are not marked as changed. None of this can be observed: whatever happens to a node in a run (styles, inherited values, resets, transitions, animations, placeholders), its components show the same values, and it sends the same events in the same frames, as in a program that copies every map and writes every node in every frame; and the debug assertion that nothing is pending on an unmarked node never fails.", "quantifier": "all histories of frames of a node, all values computed or inherited in them, all animations and transitions, all numbers of properties", "why_tests_cant": "A stale identity only matters after a particular sequence of frames; a test sees the frames it runs, and copy on write makes most wrong programs look right", "anchors": ["crates/bevy_flair_style/src/systems.rs:set_needs_property_application", "crates/bevy_flair_style/src/systems.rs:apply_computed_properties", "crates/bevy_flair_style/src/components.rs:apply_computed_properties", "crates/bevy_flair_core/src/property_map.rs:ptr_eq"]}
{"id": "C108", "title": "A style sheet given as a text in the code is that of a file, without imports and without errors", "statement": "Parsing a style sheet from a string gives exactly the sheet, or the failure, that loading a file with this text gives when its errors are returned; a text with an @import is refused; and a text is accepted exactly when it has no @import, no error in any of its rules, and every declaration names a property that exists with a value of its type.", "quantifier": "all texts, all parsers of values and selectors, all registered properties", "why_tests_cant": "The texts have no bound, and any rule, at any depth of nesting, may be the one with the error; tests parse a few small sheets", "anchors": ["crates/bevy_flair_css_parser/src/loader.rs:InlineCssStyleSheetParser", "crates/bevy_flair_css_parser/src/imports_parser.rs:extract_imports", "crates/bevy_flair_css_parser/src/internal_loader.rs:load_stylesheet"]}
