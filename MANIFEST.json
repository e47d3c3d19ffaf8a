{
 "claims": [
  {
   "property": "C01",
   "status": "proved",
   "theorems": [
    "Verif.Text.C01_sfstring_roundtrip",
    "Verif.Text.C01_sfstring_unique",
    "Verif.Text.C01_sfstring_selfdelimiting"
   ],
   "note": "Every text of characters; the string rule of the grammar and the SFString conversion, in any following context."
  },
  {
   "property": "C02",
   "status": "proved",
   "theorems": [
    "Verif.ListText.C02_mfstring_roundtrip"
   ],
   "note": "Every list of strings and every ignorable formatting option; both layouts."
  },
  {
   "property": "C03",
   "status": "proved",
   "theorems": [
    "Verif.Number.C03_compaction_preserves_value",
    "Verif.Number.C03_compact_is_one_number",
    "Verif.Number.C03_compact_not_longer",
    "Verif.Number.C03_inf_nan_not_read"
   ],
   "note": "Every text of the shape of a Python float repr; value compared as an exact decimal with sign of zero; inf and nan are not readable (theorem)."
  },
  {
   "property": "C04",
   "status": "proved",
   "theorems": [
    "Verif.ListText.C04_mfint32_roundtrip",
    "Verif.ListText.C04_mffloat_roundtrip"
   ],
   "note": "Any length, chunked layout included."
  },
  {
   "property": "C05",
   "status": "proved",
   "theorems": [
    "Verif.ListText.C05_every_component_written",
    "Verif.ListText.C05_rows_roundtrip",
    "Verif.ListText.C05_long_rows_never_written",
    "Verif.ListText.C05_sfvec_roundtrip"
   ],
   "note": "Row lengths 1 to 100, any number of rows; longer rows make the writer loop for ever (theorem)."
  },
  {
   "property": "C06",
   "status": "proved",
   "theorems": [
    "Verif.Text.C06_sfint32_roundtrip",
    "Verif.Text.C06_hex_base16",
    "Verif.Text.C06_list_one_value_each",
    "Verif.Text.C06_list_one_float_each",
    "Verif.Text.C06_leading_zero_rejected"
   ],
   "note": "Every integer; hexadecimal texts; a leading zero is rejected (theorem)."
  },
  {
   "property": "C07",
   "status": "proved",
   "theorems": [
    "Verif.Grammar.C07_ignorable_skipped",
    "Verif.Grammar.C07_only_ignorable_skipped",
    "Verif.Grammar.C07_unterminated_comment_kept",
    "Verif.Layout.C07_layout_irrelevant",
    "Verif.Layout.C07_layout_irrelevant_prototypes",
    "Verif.Layout.C07_header_irrelevant"
   ],
   "note": "Exactly the ignorable texts are skipped; a comment without newline is not."
  },
  {
   "property": "C08",
   "status": "proved",
   "theorems": [
    "Verif.Grammar.C08_one_outcome",
    "Verif.Grammar.C08_parse_splits_text",
    "Verif.Grammar.C08_file_all_or_error",
    "Verif.Grammar.C08_interpreter_computes"
   ],
   "note": "Every production and every text has exactly one outcome."
  },
  {
   "property": "C09",
   "status": "proved",
   "theorems": [
    "Verif.Builtin.C09_builtin_names",
    "Verif.Lin.C09_round_trip",
    "Verif.Lin.C09_refuted_empty_scene",
    "Verif.Lin.C09_refuted_unnamed_sharing",
    "Verif.Lin.C09_refuted_array_default",
    "Verif.Lin.C09_refuted_null_in_list",
    "Verif.Lin.C09_refuted_duplicate_names"
   ],
   "note": "Round trip of whole scenes: nodes, Scripts, DEF, USE, shared nodes, NULL, MFNode lists, scalar fields, routes (any graph and sharing). What GoodScene excludes is refuted: empty scenes, unnamed sharing, array defaults, duplicate names, NULL in lists, string lists (C56), type names (C57), long rows (C05). Prototypes: C67."
  },
  {
   "property": "C10",
   "status": "proved",
   "theorems": [
    "Verif.Lin.C10_use_after_def",
    "Verif.Lin.C10_use_after_def_text",
    "Verif.Lin.C10_bodies_once",
    "Verif.Lin.C10_refuted_named_body_twice"
   ],
   "note": "The writer of a shared node: first occurrence is the definition, later ones USE; any graph of nodes whose DEF names are distinct."
  },
  {
   "property": "C11",
   "status": "proved",
   "theorems": [
    "Verif.Lin.C11_ends_named",
    "Verif.Lin.C11_only_names_added",
    "Verif.Lin.C11_given_name_unique",
    "Verif.Lin.C11_unique",
    "Verif.Lin.C11_idempotent",
    "Verif.Lin.C11_refuted_duplicate_names",
    "Verif.Lin.C11_text_repeats"
   ],
   "note": "Names generated for routes: unique, and the routes resolve to the same nodes after reading."
  },
  {
   "property": "C12",
   "status": "proved",
   "theorems": [
    "Verif.Field.C12_set_get",
    "Verif.Field.C12_notifications_exact"
   ],
   "note": "For every field table, coercion function and history; pure-Python and accelerated classes."
  },
  {
   "property": "C13",
   "status": "proved",
   "theorems": [
    "Verif.Field.C13_rejected_set",
    "Verif.Field.C13_other_exception"
   ],
   "note": "Rejected set: ValueError, unchanged heap, no notification."
  },
  {
   "property": "C14",
   "status": "proved",
   "theorems": [
    "Verif.Field.C14_default_read",
    "Verif.Field.C14_bad_default"
   ],
   "note": "First and later reads of a default."
  },
  {
   "property": "C15",
   "status": "proved",
   "theorems": [
    "Verif.Field.C15_delete_restores_default",
    "Verif.Field.C15_refuted_pure",
    "Verif.Field.C15_delete_unset",
    "Verif.Field.C15_fhas_tracks"
   ],
   "note": "Proved for the accelerated class; the pure-Python class is shown to keep the value (C15_refuted_pure refutes the restoring there)."
  },
  {
   "property": "C16",
   "status": "proved",
   "theorems": [
    "Verif.Field.C16_pure_accel_agree",
    "Verif.Field.C16_refuted_delete"
   ],
   "note": "Agreement proved for histories of gets/sets/quiet sets; deletion differs (refutation theorem)."
  },
  {
   "property": "C17",
   "status": "proved",
   "theorems": [
    "Verif.Field.C17_never_dead",
    "Verif.Field.C17_tracks_life",
    "Verif.Field.C17_forgetting",
    "Verif.Field.C17_signals",
    "Verif.Field.C17_assign_reference"
   ],
   "note": "Weak field never returns a dead node, tracks deaths, forgets."
  },
  {
   "property": "C18",
   "status": "proved",
   "theorems": [
    "Verif.Builtin.C18_sfnode",
    "Verif.Builtin.C18_mfnode",
    "Verif.Coerce.C18_idempotent"
   ],
   "note": "All 39 field classes through 12 coercion kinds, any element type and dimension."
  },
  {
   "property": "C19",
   "status": "proved",
   "theorems": [
    "Verif.Builtin.C19_sfnode",
    "Verif.Builtin.C19_mfnode",
    "Verif.Coerce.C19_shape"
   ],
   "note": "Arrays given as input are assumed well formed (numpy arrays are)."
  },
  {
   "property": "C20",
   "status": "proved",
   "theorems": [
    "Verif.Coerce.C20_in_range",
    "Verif.Coerce.C20_numbers_in_range",
    "Verif.Coerce.C20_refuted_nan"
   ],
   "note": "NaN components are accepted and stay NaN: refutation; otherwise in range."
  },
  {
   "property": "C21",
   "status": "proved",
   "theorems": [
    "Verif.Coerce.C21_leaves",
    "Verif.Coerce.C21_flat",
    "Verif.Coerce.C21_flat_unchanged"
   ],
   "note": "Nested lists as finite trees."
  },
  {
   "property": "C22",
   "status": "proved",
   "theorems": [
    "Verif.Coerce.C22_hex6",
    "Verif.Coerce.C22_case_insensitive",
    "Verif.Coerce.C22_byte_round_trip",
    "Verif.Coerce.C22_nearest_byte",
    "Verif.Coerce.C22_hex_round_trip",
    "Verif.Coerce.C22_refuted_short",
    "Verif.Coerce.C22_names",
    "Verif.Coerce.C22_range"
   ],
   "note": "#rgb is not expanded (refutation); everything else proved, CSS table evaluated in full by the kernel."
  },
  {
   "property": "C23",
   "status": "proved",
   "theorems": [
    "Verif.Coerce.C23_vec_accepts",
    "Verif.Coerce.C23_vec_rejects",
    "Verif.Coerce.C23_refuted_matrix",
    "Verif.Coerce.C23_matrix_array",
    "Verif.Coerce.C23_mfvec_ragged",
    "Verif.Coerce.C23_mfvec_rows",
    "Verif.Coerce.C23_mfvec_flat"
   ],
   "note": "Matrix fields reject every plain list (refutation); vectors and multi-vectors proved."
  },
  {
   "property": "C24",
   "status": "proved",
   "theorems": [
    "Verif.OList.C24_contents",
    "Verif.OList.C24_plain_operations",
    "Verif.OList.C24_refuted_delItem",
    "Verif.OList.C24_delItem_never_deletes"
   ],
   "note": "False for item deletion (`del l[i]` deletes nothing): refutation; proved for every other operation."
  },
  {
   "property": "C25",
   "status": "proved",
   "theorems": [
    "Verif.OList.C25_step_iff",
    "Verif.OList.C25_reconcile",
    "Verif.OList.C25_refuted",
    "Verif.OList.C25_events_paired"
   ],
   "note": "Exact condition for reconciliation per operation; false for += / duplicates: refutation."
  },
  {
   "property": "C26",
   "status": "proved",
   "theorems": [
    "Verif.OList.C26_extend_contents",
    "Verif.OList.C26_refuted_rebind"
   ],
   "note": "Contents after extension proved for the extended list; `node.children += x` rebinding refuted."
  },
  {
   "property": "C27",
   "status": "proved",
   "theorems": [
    "Verif.MFNode.C27_child_change_notifies",
    "Verif.MFNode.C27_append_notifies",
    "Verif.MFNode.C27_refuted_default",
    "Verif.MFNode.C27_refuted_attr",
    "Verif.MFNode.C27_first_fset",
    "Verif.MFNode.C27_refuted_fset_silent"
   ],
   "note": "Proved for fields assigned through the wiring path; default-read lists and plain attribute assignment are silent: refutations."
  },
  {
   "property": "C28",
   "status": "proved",
   "theorems": [
    "Verif.WeakList.C28_contents",
    "Verif.WeakList.C28_collected",
    "Verif.WeakList.C28_results"
   ],
   "note": "Weak list contents after any interleaving of operations and collections."
  },
  {
   "property": "C29",
   "status": "proved",
   "theorems": [
    "Verif.WeakList.C29_quiet_iteration",
    "Verif.WeakList.C29_yields_live",
    "Verif.WeakList.C29_refuted_skip"
   ],
   "note": "Live-only and completeness proved for quiet iteration; a death during iteration can skip a live item: refutation."
  },
  {
   "property": "C30",
   "status": "proved",
   "theorems": [
    "Verif.Cache.C30_frame",
    "Verif.Cache.C30_latest",
    "Verif.Cache.C30_latest_set"
   ],
   "note": "Latest holder and its data; frame for other clients/keys; any history."
  },
  {
   "property": "C31",
   "status": "proved",
   "theorems": [
    "Verif.Cache.C31_invalidates",
    "Verif.Cache.C31_stays_invalid",
    "Verif.Cache.C31_other_fields",
    "Verif.Cache.C31_dropped_watches_nothing"
   ],
   "note": "Invalidation at the moment of the notification and until new data is stored."
  },
  {
   "property": "C32",
   "status": "proved",
   "theorems": [
    "Verif.Cache.C32_no_leak",
    "Verif.Cache.C32_fresh",
    "Verif.Cache.C32_death_clears"
   ],
   "note": "Id reuse modelled explicitly (addresses); unbounded histories with deaths."
  },
  {
   "property": "C33",
   "status": "proved",
   "theorems": [
    "Verif.Cache.C33_only_own_entry",
    "Verif.Cache.C33_removes_own",
    "Verif.Cache.C33_refuted_stale"
   ],
   "note": "A holder replaced by a newer one for the same client and key removes the newer one when called: refutation; otherwise proved as stated."
  },
  {
   "property": "C34",
   "status": "proved",
   "theorems": [
    "Verif.Mx.C34_real_matrices_current",
    "Verif.TCache.C34_local_matrices_current"
   ],
   "note": "Any history, any flags; instantiated with the real matrix computation."
  },
  {
   "property": "C35",
   "status": "proved",
   "theorems": [
    "Verif.Mx.C35_real_matrix_current",
    "Verif.TCache.C35_path_matrix_current",
    "Verif.TCache.C35_refuted_center"
   ],
   "note": "False for scale=True, rotate=False (center not watched): refutation; proved for all other flag combinations."
  },
  {
   "property": "C36",
   "status": "proved",
   "theorems": [
    "Verif.Mx.C36_cancel",
    "Verif.Mx.C36_zero_scale",
    "Verif.Mx.C36_scale_inverse",
    "Verif.Mx.C36_transformMatrices"
   ],
   "note": "Non-zero axes and scale components; the zero-scale case is shown not to cancel."
  },
  {
   "property": "C37",
   "status": "proved",
   "theorems": [
    "Verif.Mx.C37_inverse_is_transpose",
    "Verif.Mx.C37_orthogonal",
    "Verif.Mx.C37_axis_fixed",
    "Verif.Mx.C37_angles_add",
    "Verif.Mx.C37_det_one",
    "Verif.Mx.C37_direction_only",
    "Verif.Mx.C37_none_iff_whole_turn",
    "Verif.Mx.C37_rotates"
   ],
   "note": "Real arithmetic."
  },
  {
   "property": "C38",
   "status": "proved",
   "theorems": [
    "Verif.Mx.C38_compress",
    "Verif.Mx.C38_compress_identity",
    "Verif.Mx.C38_none_iff"
   ],
   "note": "Exact product formula."
  },
  {
   "property": "C39",
   "status": "proved",
   "theorems": [
    "Verif.Mx.C39_concat",
    "Verif.Mx.C39_unit",
    "Verif.Mx.C39_inverse",
    "Verif.Mx.C39_moves_points"
   ],
   "note": "Any path length."
  },
  {
   "property": "C40",
   "status": "proved",
   "theorems": [
    "Verif.Mx.C40_perspective_inverse",
    "Verif.Mx.C40_perspective_frustum",
    "Verif.Mx.C40_ortho_box",
    "Verif.Mx.C40_ortho_corners",
    "Verif.Mx.C40_refuted_ortho_row"
   ],
   "note": "Perspective fully proved; orthographic matrix maps the box to the cube only for column vectors, it is transposed with respect to the documented row-vector convention (refutation)."
  },
  {
   "property": "C41",
   "status": "proved",
   "theorems": [
    "Verif.Mx.C41_rotation",
    "Verif.Mx.C41_scale",
    "Verif.Mx.C41_translation",
    "Verif.Mx.C41_perspective",
    "Verif.Mx.C41_ortho"
   ],
   "note": "Where both are defined (non-zero axis, non-degenerate parameters)."
  },
  {
   "property": "C42",
   "status": "proved",
   "theorems": [
    "Verif.Mx.C42_culled_iff",
    "Verif.Mx.C42_first_plane",
    "Verif.Mx.C42_not_culled",
    "Verif.Mx.C42_visible_kept"
   ],
   "note": "Exactness, first plane, never culls a visible set."
  },
  {
   "property": "C43",
   "status": "proved",
   "theorems": [
    "Verif.Route.C43_terminates",
    "Verif.Route.C43_refuted_diamond"
   ],
   "note": "Termination for every network, with event ports only as ends; per-port write count bounded by number of routes leaving the set port; once-only is false for diamonds: refutation."
  },
  {
   "property": "C44",
   "status": "proved",
   "theorems": [
    "Verif.Route.C44_reaches_exactly",
    "Verif.Route.C44_same_type"
   ],
   "note": "Exact reachability, path-carried values, and last-stored value; networks in which event ports only end routes."
  },
  {
   "property": "C45",
   "status": "proved",
   "theorems": [
    "Verif.Route.C45_refuted_cycle",
    "Verif.Route.C45_refuted_value",
    "Verif.Route.C45_event_ends"
   ],
   "note": "Event ports as ends of routes; C45_refuted_* show what happens in the middle of routes."
  },
  {
   "property": "C46",
   "status": "proved",
   "theorems": [
    "Verif.Proto.C46_exact_name_wins",
    "Verif.Proto.C46_event_names",
    "Verif.Proto.C46_lookup_complete",
    "Verif.Proto.C46_unknown_raises",
    "Verif.Proto.C46_refuted_storage_name"
   ],
   "note": "Complete description of lookup; looking up a storage name returns the string instead of the field (refutation)."
  },
  {
   "property": "C47",
   "status": "proved",
   "theorems": [
    "Verif.Proto.C47_enumeration",
    "Verif.Proto.C47_kinds",
    "Verif.Proto.C47_listed",
    "Verif.Proto.C47_agrees_with_lookup",
    "Verif.Proto.C47_hidden_field_still_listed"
   ],
   "note": "Any hierarchy; remark theorem: a derived non-field does not hide the base field from the enumeration."
  },
  {
   "property": "C48",
   "status": "proved",
   "theorems": [
    "Verif.Scene.C48_step",
    "Verif.Scene.C48_last_registration",
    "Verif.Scene.C48_undisturbed",
    "Verif.Scene.C48_refuted_consistency"
   ],
   "note": "One-step and whole-history characterisation; direct DEF assignment and multi-scene registration make the table stale (refutation)."
  },
  {
   "property": "C49",
   "status": "proved",
   "theorems": [
    "Verif.Scene.C49_innermost_definition",
    "Verif.Scene.C49_copy_sees_own_only",
    "Verif.Scene.C49_lexical_scoping"
   ],
   "note": "Innermost-definition characterisation for the API, and equality with block-structured scoping for whole files of nested PROTOs; a copied scene graph loses its enclosing scenes (theorem)."
  },
  {
   "property": "C50",
   "status": "proved",
   "theorems": [
    "Verif.Copy.C50_copy_reads_same",
    "Verif.Copy.C50_copied_once",
    "Verif.Copy.C50_independent",
    "Verif.Copy.C50_refuted_child_list_observable",
    "Verif.Copy.C50_refuted_scene_copy",
    "Verif.Copy.C50_scene_in_own_table"
   ],
   "note": "Equal reads, no change to old objects, one copy per pass, mutual independence; refuted: copied child lists are not observable and a copied scene graph keeps the original children."
  },
  {
   "property": "C51",
   "status": "proved",
   "theorems": [
    "Verif.Copy.C51_instantiate_connects",
    "Verif.Copy.C51_instances_linked",
    "Verif.Copy.C51_unmapped_fields",
    "Verif.Copy.C51_default_reaches_last",
    "Verif.Copy.C51_refuted_defaults"
   ],
   "note": "Unmapped fields independent; mapped fields linked in every pair of instances (a user would expect them independent)."
  },
  {
   "property": "C52",
   "status": "proved",
   "theorems": [
    "Verif.NodePath.C52_common_is_longest_common_prefix",
    "Verif.NodePath.C52_equality",
    "Verif.NodePath.C52_concatenation"
   ],
   "note": "Longest common prefix, equality, concatenation."
  },
  {
   "property": "C53",
   "status": "proved",
   "theorems": [
    "Verif.NodePath.C53_invalidate_exact",
    "Verif.NodePath.C53_refuted_third_level",
    "Verif.NodePath.C53_derived_is_broken",
    "Verif.NodePath.C53_second_level_is_broken"
   ],
   "note": "Exact; C53_refuted_third_level shows a third-level path staying valid."
  },
  {
   "property": "C54",
   "status": "proved",
   "theorems": [
    "Verif.Scene.C54_root_propagation",
    "Verif.Scene.C54_acyclic_completes",
    "Verif.Scene.C54_refuted_cyclic"
   ],
   "note": "Any graph on which the recursion completes, and it completes on all acyclic graphs; diverges on cyclic ones (refutation)."
  },
  {
   "property": "C55",
   "status": "proved",
   "theorems": [
    "Verif.NodePath.C55_compare",
    "Verif.NodePath.C55_arrays",
    "Verif.NodePath.C55_refuted_arrays"
   ],
   "note": "Exact in both cases; C55_refuted_arrays shows the deviation from equality."
  },
  {
   "property": "C56",
   "status": "proved",
   "theorems": [
    "Verif.Lin.C56_field_rejected",
    "Verif.Lin.C56_file_rejected",
    "Verif.Lin.C56_scene_rejected"
   ],
   "note": "The user expectation (readable text) is false for every non-empty list; this is what is proved: for the attribute, for one-node files, and (C56_scene_rejected) for every scene in which some written node has such an attribute, by counting brackets."
  },
  {
   "property": "C57",
   "status": "proved",
   "theorems": [
    "Verif.Lin.C57_exact",
    "Verif.Lin.C57_refuted_keyword_prefix"
   ],
   "note": "Exact characterisation of the type names that can be read back at root level; names with a keyword as prefix are refuted."
  },
  {
   "property": "C58",
   "status": "proved",
   "theorems": [
    "Verif.Builtin.C58_defaults_accepted",
    "Verif.Builtin.C58_refuted_shader_appearance"
   ],
   "note": "Every default of the 73 built-in classes is accepted except one (refutation)."
  },
  {
   "property": "C59",
   "status": "proved",
   "theorems": [
    "Verif.Builtin.C59_exact",
    "Verif.Builtin.C59_refuted_fields",
    "Verif.Builtin.C59_events",
    "Verif.Builtin.C59_registered"
   ],
   "note": "Every field declared by the built-in classes can be read from a file except the listed ones (refutation); events and registration complete."
  },
  {
   "property": "C60",
   "status": "proved",
   "theorems": [
    "Verif.Mx.C60_moves_points",
    "Verif.Mx.C60_inverse_moves_back"
   ],
   "note": "VRML97 point semantics of localMatrices and of path matrices."
  },
  {
   "property": "C61",
   "status": "proved",
   "theorems": [
    "Verif.Mx.C61_refuted_parent",
    "Verif.Mx.C61_parent_factor",
    "Verif.Mx.C61_inverse_iff"
   ],
   "note": "Exact description; C61_refuted_parent shows that the pair is in general not inverse, contrary to the documentation."
  },
  {
   "property": "C62",
   "status": "proved",
   "theorems": [
    "Verif.Proto.C62_add_then_lookup",
    "Verif.Proto.C62_add_then_enumerate",
    "Verif.Proto.C62_remove"
   ],
   "note": "Any hierarchy."
  },
  {
   "property": "C63",
   "status": "proved",
   "theorems": [
    "Verif.Coerce.C63_words",
    "Verif.Coerce.C63_int_list",
    "Verif.Coerce.C63_int_text",
    "Verif.Coerce.C63_int_text_rejected",
    "Verif.Coerce.C63_float_list",
    "Verif.Coerce.C63_float_text",
    "Verif.Coerce.C63_vec_text",
    "Verif.Coerce.C63_int32",
    "Verif.Coerce.C63_truncated_unique",
    "Verif.Coerce.C63_scalar_refused",
    "Verif.Coerce.C63_float_array",
    "Verif.Coerce.C63_int_array",
    "Verif.Coerce.C63_float",
    "Verif.Coerce.C63_bool_number",
    "Verif.Coerce.C63_bool_text",
    "Verif.Coerce.C63_string",
    "Verif.Coerce.C63_mstring",
    "Verif.Coerce.C63_colour_names",
    "Verif.Coerce.C63_number_as_list",
    "Verif.Coerce.C63_other_values"
   ],
   "note": "Python text-to-number conversion is a parameter; numbers are rationals, infinities or NaN."
  },
  {
   "property": "C64",
   "status": "proved",
   "theorems": [
    "Verif.Frustum.C64_first_plane",
    "Verif.Frustum.C64_kept_iff",
    "Verif.Frustum.C64_culled_is_behind",
    "Verif.Frustum.C64_box_is_behind",
    "Verif.Frustum.C64_visible_kept",
    "Verif.Frustum.C64_monotone",
    "Verif.Frustum.C64_no_points",
    "Verif.Frustum.C64_outside_may_be_kept"
   ],
   "note": "Any number of planes and points over any ordered field; boxes and convex hulls."
  },
  {
   "property": "C65",
   "status": "proved",
   "theorems": [
    "Verif.Construct.C65_builds_iff",
    "Verif.Construct.C65_values",
    "Verif.Construct.C65_notifications",
    "Verif.Construct.C65_error",
    "Verif.Construct.C65_storage_name_refused"
   ],
   "note": "Any class hierarchy and argument list; pure and accelerated notification order."
  },
  {
   "property": "C66",
   "status": "proved",
   "theorems": [
    "Verif.Construct.C66_four_parts",
    "Verif.Construct.C66_new_route_hears",
    "Verif.Construct.C66_function",
    "Verif.Construct.C66_function_hears",
    "Verif.Construct.C66_refuted_still_writable",
    "Verif.Construct.C66_routes_only"
   ],
   "note": "Every form of argument; C66_refuted_still_writable shows that a scene graph that ever got a function cannot be written."
  },
  {
   "property": "C67",
   "status": "proved",
   "theorems": [
    "Verif.Lin.C67_without_prototypes",
    "Verif.Lin.C67_round_trip",
    "Verif.Lin.C67_refuted_write_again"
   ],
   "note": "C67_round_trip is for all files that satisfy GoodFile (Spec/ProtoTrip.lean); C67_without_prototypes ties the model to that of C09; C67_refuted_write_again: no such file can be written a second time after reading."
  },
  {
   "property": "C68",
   "status": "proved",
   "theorems": [
    "Verif.Lin.C68_extern_unreadable"
   ],
   "note": "For every interface with legal names, types and defaults (GoodInterface)."
  },
  {
   "property": "C69",
   "status": "proved",
   "theorems": [
    "Verif.Full.C69_legal_names",
    "Verif.Reader.C69_scene_well_formed",
    "Verif.Reader.C69_file_well_formed",
    "Verif.Reader.C69_one_scene",
    "Verif.Reader.C69_one_file",
    "Verif.Reader.C69_refuted_no_cycles",
    "Verif.Full.C69_world_well_formed",
    "Verif.Full.C69_one_world"
   ],
   "note": "For every text; C69_refuted_no_cycles shows that acyclicity is not among the guarantees."
  },
  {
   "property": "C70",
   "status": "proved",
   "theorems": [
    "Verif.X3D.C70_one_outcome",
    "Verif.X3D.C70_parse_splits_text",
    "Verif.X3D.C70_file_whole",
    "Verif.X3D.C70_reads_vrml97",
    "Verif.X3D.C70_reads_component",
    "Verif.X3D.C70_reads_meta",
    "Verif.X3D.C70_same_parse",
    "Verif.X3D.C70_vrml97_header_refused",
    "Verif.X3D.C70_refuted_version_header",
    "Verif.X3D.C70_refuted_component",
    "Verif.X3D.C70_refuted_two_components",
    "Verif.X3D.C70_one_file",
    "Verif.X3D.C70_refuted_new_words"
   ],
   "note": "C70_same_parse is production by production; C70_reads_vrml97 is an equivalence for whole files; the C70_refuted theorems are findings about the header and the new words."
  },
  {
   "property": "C71",
   "status": "proved",
   "theorems": [
    "Verif.Lin.C71_interface_round_trip",
    "Verif.Lin.C71_refuted_values_survive",
    "Verif.Lin.C71_refuted_value_lost",
    "Verif.Lin.C71_reserved_names"
   ],
   "note": "C71_interface_round_trip for all good scenes; the two refutations: the text never depends on values or IS of declared fields."
  },
  {
   "property": "C72",
   "status": "proved",
   "theorems": [
    "Verif.Nesting.C72_accepted_nested",
    "Verif.Nesting.C72_unnested_rejected",
    "Verif.Nesting.C72_refuted_externproto"
   ],
   "note": "By induction on derivations: each grammar expression has a fixed effect on the stack of open brackets. C72_refuted_externproto shows that the restriction is needed."
  },
  {
   "property": "C73",
   "status": "proved",
   "theorems": [
    "Verif.Full.C73_prototype_scopes",
    "Verif.Full.C73_inner_prototype_not_known_outside",
    "Verif.Full.C73_prototype_not_known_in_own_body"
   ],
   "note": "C73_prototype_scopes: the reader (with nested prototypes, all objects in one store) against the scope rules of Spec/Scopes.lean, for every text."
  },
  {
   "property": "C74",
   "status": "proved",
   "theorems": [
    "Verif.Full.C74_def_scopes",
    "Verif.Full.C74_names_not_known_inside",
    "Verif.Full.C74_names_not_known_outside",
    "Verif.Full.C74_refuted_default_nodes"
   ],
   "note": "C74_def_scopes under the stated hypothesis; C74_refuted_default_nodes shows that it is needed."
  },
  {
   "property": "C75",
   "status": "proved",
   "theorems": [
    "Verif.Full.C75_value_reaches_linked_fields",
    "Verif.Full.C75_instances_are_linked",
    "Verif.Full.C75_instances_share_mapped_fields",
    "Verif.Full.C75_lists_and_plain_nodes_not_forwarded",
    "Verif.Full.C75_refuted_independent_instances"
   ],
   "note": "Forwarding with any graph of connections (C75_value_reaches_linked_fields) and which connections a file makes (C75_instances_are_linked); C75_refuted_independent_instances is the witness that instances are not independent."
  },
  {
   "property": "C76",
   "status": "proved",
   "theorems": [
    "Verif.Full.C76_one_store",
    "Verif.Full.C76_round_trip",
    "Verif.Full.C76_scene_round_trip"
   ],
   "note": "C76_one_store is a refinement: the reader with one store (FullRead) against the readers of single scenes (SceneRead, ProtoText); C76_round_trip and C76_scene_round_trip carry C67 and C09 over. Files with nested PROTOs, EXTERNPROTOs or node defaults are outside the refinement (C73, C74, C77 speak about them)."
  },
  {
   "property": "C77",
   "status": "proved",
   "theorems": [
    "Verif.Full.C77_interfaces_as_declared",
    "Verif.Full.C77_fields_of_instances"
   ],
   "note": "C77_interfaces_as_declared for every text: interfaces against Spec/Interface.lean, with the numbering of prototypes of Spec/Scopes.lean."
  },
  {
   "property": "C78",
   "status": "proved",
   "theorems": [
    "Verif.Full.C78_content_as_written",
    "Verif.Full.C78_connections",
    "Verif.Full.C78_field_values",
    "Verif.Full.C78_values_without_instances"
   ],
   "note": "C78_field_values and C78_content_as_written: the reader with one store against the statements of Spec/Content.lean, for every text; C78_connections says where connections come from. With names = true (no nodes in prototype defaults) USE is resolved by the scopes of C74, with names = false the nodes named by USE are left open."
  },
  {
   "property": "C79",
   "status": "proved",
   "theorems": [
    "Verif.Full.C79_structure_as_written"
   ],
   "note": "C79_structure_as_written, the other half of Content (Spec/Content.lean)."
  },
  {
   "property": "C80",
   "status": "proved",
   "theorems": [
    "Verif.Full.C80_accepted_iff_fine",
    "Verif.Full.C80_known_names",
    "Verif.Full.C80_joined_files",
    "Verif.Full.C80_first_items"
   ],
   "note": "C80_accepted_iff_fine is an equivalence: the reader against the rules Fine (Spec/Accept.lean), for every text without prototypes. Files with prototypes are outside it. Names of Python attributes of Script (reserved) are refused in Script declarations by the model; the code would let some of them pass."
  },
  {
   "property": "C81",
   "status": "proved",
   "theorems": [
    "Verif.Library.C81_builtins",
    "Verif.Library.C81_all_fields",
    "Verif.Library.C81_event_types",
    "Verif.Library.C81_type_defaults",
    "Verif.Library.C81_round_trip",
    "Verif.Library.C81_new_nodes",
    "Verif.Library.C81_refuted_font_style",
    "Verif.Library.C81_scripts_round_trip"
   ],
   "note": "The abstract table of node types of C09, C69, C73-C80 instantiated with the table generated from basenodes.py (C81_builtins); C81_round_trip is C76_scene_round_trip for it with no hypothesis about node types left. About floats: the numbers in the scene and in the defaults survive as text (C03). C81_refuted_font_style is a witness of the exception."
  },
  {
   "property": "C82",
   "status": "proved",
   "theorems": [
    "Verif.Agree.C82_coercions_agree",
    "Verif.Agree.C82_defaults_agree",
    "Verif.Agree.C82_reader_gives",
    "Verif.Agree.C82_null_text"
   ],
   "note": "Two models of the same code compared: the coercions of Model/Coerce and Model/NodeCoerce (C18-C23) and the one used by the reader and writer of C09-C11, C69-C81. C82_reader_gives says that the reader produces only values of the forms compared. str(node), which contains a memory address, is one fixed text in both."
  },
  {
   "property": "C83",
   "status": "proved",
   "theorems": [
    "Verif.Mx.C83_pair",
    "Verif.Mx.C83_moves_points",
    "Verif.Mx.C83_inverse_moves_points",
    "Verif.Mx.C83_inverse_iff",
    "Verif.Mx.C83_refuted_inverse",
    "Verif.Mx.C83_center",
    "Verif.Mx.C83_refuted_center"
   ],
   "note": "Real arithmetic. C83_refuted_inverse and C83_refuted_center are the findings: with a parent the two matrices are in general not inverse, and center raises whenever there is something to compute."
  },
  {
   "property": "C84",
   "status": "proved",
   "theorems": [
    "Verif.Bytes.C84_decode_iff",
    "Verif.Bytes.C84_text_round_trip",
    "Verif.Bytes.C84_fallback",
    "Verif.Bytes.C84_other_objects",
    "Verif.Bytes.C84_pieces"
   ],
   "note": "Python 3 branch, encoding utf-8 (the default); the codec itself is written out in the model (RFC 3629)."
  },
  {
   "property": "C85",
   "status": "proved",
   "theorems": [
    "Verif.Scene.C85_rooted",
    "Verif.Scene.C85_changes",
    "Verif.Scene.C85_completes",
    "Verif.Scene.C85_refuted_current_root_kept",
    "Verif.Scene.C85_refuted_append",
    "Verif.Scene.C85_stores"
   ],
   "note": "Scene graphs stay alive. C85_refuted_current_root_kept: contrary to the documentation a node below the assigned one loses its root; C85_refuted_append: changes that bypass fset give no root."
  },
  {
   "property": "C86",
   "status": "proved",
   "theorems": [
    "Verif.Route.C86_stops_iff",
    "Verif.Route.C86_reaches_exactly",
    "Verif.Route.C86_mapped_events"
   ],
   "note": "Routes between existing ports; RecursionError is non-termination here. C86_mapped_events: events mapped by IS never stop."
  },
  {
   "property": "C87",
   "status": "proved",
   "theorems": [
    "Verif.Full.C87_event_loops_never_end",
    "Verif.Full.C87_value_refused_iff",
    "Verif.Full.C87_no_value_for_doubly_mapped_field"
   ],
   "note": "Coercions of values forwarded to a field of another type are a parameter (any function); the exact condition assumes that they raise only ValueError and TypeError."
  },
  {
   "property": "C88",
   "status": "proved",
   "theorems": [
    "Verif.Library.C88_library_scripts",
    "Verif.Full.C88_saved_again",
    "Verif.Full.C88_other_options",
    "Verif.Library.C88_library",
    "Verif.Full.C88_scripts_saved_again",
    "Verif.Full.C88_scripts_other_options",
    "Verif.Full.C88_library_standard"
   ],
   "note": "Scripts are covered when their declared fields have the values of their declarations (C71: the writer loses others) and their url is empty (the writer breaks others). Files with prototypes cannot be saved again (C67_refuted_write_again). Conditions on values as in C09/C81."
  },
  {
   "property": "C89",
   "status": "proved",
   "theorems": [
    "Verif.CopyText.C89_node",
    "Verif.CopyText.C89_original_stays",
    "Verif.CopyText.C89_scene",
    "Verif.CopyText.C89_written_is_read",
    "Verif.CopyText.C89_written_lists",
    "Verif.CopyText.C89_written_routes",
    "Verif.CopyText.C89_node_text_header",
    "Verif.CopyText.C89_refuted_below_itself"
   ],
   "note": "Conditions: the fields of a class that are shown are among those copied (getFields), no dangling references. C89_refuted_below_itself: a node that is below itself."
  },
  {
   "property": "C90",
   "status": "proved",
   "theorems": [
    "Verif.Full.C90_accepted",
    "Verif.Full.C90_known"
   ],
   "note": "The rules are sufficient, not necessary (for files without prototypes C80 has the exact condition). Not covered: PROTO, EXTERNPROTO and ROUTE inside a Script; nodes as defaults of interface fields (DEF names in them leak, C74)."
  },
  {
   "property": "C91",
   "status": "proved",
   "theorems": [
    "Verif.Library.C91_loaded_scripts_saved",
    "Verif.Library.C91_loaded_file_saved",
    "Verif.Full.C91_shared_only_by_name"
   ],
   "note": "The conditions on the loaded scene are in Spec/Loaded (Savable) and, with Scripts, Spec/LibraryScripts (SavableScripts); numbers are abstract, that they survive as texts is a condition on the values. Prototypes are excluded: a read-back PROTO cannot be written again (C67_refuted_write_again)."
  },
  {
   "property": "C92",
   "status": "proved",
   "theorems": [
    "Verif.Editing.C92_edited_scene_saved",
    "Verif.Editing.C92_last_value",
    "Verif.Editing.C92_last_name",
    "Verif.Editing.C92_last_children",
    "Verif.Editing.C92_routes_left",
    "Verif.Editing.C92_type_kept",
    "Verif.Editing.C92_refused",
    "Verif.Editing.C92_load_edit_save",
    "Verif.Editing.C92_built_scene_saved",
    "Verif.Editing.C92_scripts_edited_saved",
    "Verif.Editing.C92_scripts_last_value",
    "Verif.Editing.C92_scripts_load_edit_save"
   ],
   "note": "Edits are in Model/Edit, the conditions in Spec/Edit (Allowed, Finished). Values that ROUTEs carry on count as further assignments of the history. Only node types of the library without prototypes; Scripts (Spec/EditScripts) come from the start, edits do not create them."
  },
  {
   "property": "C93",
   "status": "proved",
   "theorems": [
    "Verif.Full.C93_assignment_spreads",
    "Verif.Full.C93_last_assignment",
    "Verif.Full.C93_node_lists_fset",
    "Verif.Full.C93_routes_connect",
    "Verif.Full.C93_linked_by_routes",
    "Verif.Full.C93_saved",
    "Verif.Full.C93_linked_by_outer_routes"
   ],
   "note": "Assignment is Model/Animate over the store of the full reader. Value kept on the way: KeepsValue in Spec/Animate (types that change or refuse the value, and events that lead on, are left out; event loops are C86 and C87). C93_saved: files without prototypes and Scripts, values without nodes."
  },
  {
   "property": "C94",
   "status": "proved",
   "theorems": [
    "Verif.Full.C94_changes_signalled",
    "Verif.Full.C94_assigned_field_signals",
    "Verif.Full.C94_same_assignment",
    "Verif.Full.C94_matrices_follow",
    "Verif.Full.C94_path_matrix_follows",
    "Verif.Full.C94_nodes_stay",
    "Verif.Full.C94_routed_value_in_matrices",
    "Verif.Full.C94_real_matrices_follow"
   ],
   "note": "Signals of declared events are not in the log (nothing but ROUTEs listens to them in the library). Any computation of matrices for which unset and default fields give the same; C94_real_matrices_follow is the one of transformmatrix over the reals. Changes made by writing into a stored array in place are not covered (C34)."
  },
  {
   "property": "C95",
   "status": "proved",
   "theorems": [
    "Verif.Editing.C95_connections",
    "Verif.Editing.C95_session_saved",
    "Verif.Editing.C95_routed_value_saved",
    "Verif.Editing.C95_untouched_saved",
    "Verif.Editing.C95_opened",
    "Verif.Editing.C95_scripts_session_saved",
    "Verif.Editing.C95_scripts_routed_value_saved",
    "Verif.Editing.C95_scripts_untouched_saved",
    "Verif.Editing.C95_scripts_opened",
    "Verif.Editing.C95_scripts_opened_outer"
   ],
   "note": "A removed ROUTE is taken to be gone (pydispatch refers to it weakly; a program that keeps the ROUTE object is not modelled). Values that ROUTEs carry may hold nodes only if these have names; a node without a name is moved by an edit of a field from which no ROUTE leads. As in C93, the fields reached make the same value of what they are given, and an event that is reached has no ROUTE leading on. C95_scripts_*: Scripts too; what a Script does when it gets an event is not modelled (the package has no interpreter), its events are assigned. C95_scripts_opened(_outer): the connections of a loaded file with Scripts are its ROUTEs if none starts at a Script, or if all stand outside the nodes (a ROUTE inside a Script may come before the declaration of the event)."
  },
  {
   "property": "C96",
   "status": "proved",
   "theorems": [
    "Verif.Lin.C96_declaration_order",
    "Verif.Lin.C96_file_order",
    "Verif.Lin.C96_attribute_order"
   ],
   "note": "The order in which the IS mappings of a prototype body are stored is kept (it can matter if one field of a node is mapped twice)."
  },
  {
   "property": "C97",
   "status": "proved",
   "theorems": [
    "Verif.WeakDict.C97_as_plain",
    "Verif.WeakDict.C97_no_leak",
    "Verif.WeakDict.C97_ismaps",
    "Verif.WeakDict.C97_refuted_iteration"
   ],
   "note": "The methods inherited from CPython's weakref.WeakKeyDictionary are modelled as they work on `data`. Keys are compared by identity. Nothing in the package but `ismaps` uses the class."
  }
 ]
}