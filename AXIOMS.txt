Verif.C01_graph_refines_set: propext, Classical.choice, Quot.sound
Verif.C01_remove_outcome: propext, Classical.choice, Quot.sound
Verif.C02_match_exact: propext, Classical.choice, Quot.sound
Verif.C03_empty_iri_is_wildcard: propext
Verif.C03_empty_iri_eq_none: propext
Verif.C03_given_term_constrains_partial: propext, Classical.choice, Quot.sound
Verif.C04_stale_subject: propext, Classical.choice, Quot.sound
Verif.C04_lists_ever_added: propext, Classical.choice, Quot.sound
Verif.C04_terms_in_use_partial: propext, Classical.choice, Quot.sound
Verif.C05_removeMatches_raises: propext, Classical.choice, Quot.sound
Verif.C05_removeMatches_exact: propext, Classical.choice, Quot.sound
Verif.C05_removeMatches_partial: propext, Classical.choice, Quot.sound
Verif.C06_addAll_union: propext, Classical.choice, Quot.sound
Verif.C06_merge_union: propext, Classical.choice, Quot.sound
Verif.C07_order_unobservable: propext, Classical.choice, Quot.sound
Verif.C07_adds_same_elements: propext, Classical.choice, Quot.sound
Verif.C08_addTuple_not_atomic: propext
Verif.C08_addTuple_inconsistent: propext, Classical.choice, Quot.sound
Verif.C08_atomic_partial: propext, Classical.choice, Quot.sound
Verif.C09_lazy_listing: propext
Verif.C09_size_change_raises: propext
Verif.C09_finished: propext, Quot.sound
Verif.C09_remove_yielded: propext, Classical.choice, Quot.sound
Verif.C09_add_while_iterating_all: propext, Classical.choice, Quot.sound
Verif.C09_together_raises: propext, Classical.choice, Quot.sound
Verif.C09_bound_ends: propext, Quot.sound
Verif.C09_outer_raises: propext
Verif.C10_quads_lost: propext
Verif.C10_second_removal_fails: propext
Verif.C10_quads_found_partial: propext, Quot.sound
Verif.C10_bound_match_misses_quads: propext, Quot.sound
Verif.C10_exact: propext, Classical.choice, Quot.sound
Verif.C10_found_is_there: propext, Classical.choice, Quot.sound
Verif.C10_last_added: propext, Classical.choice, Quot.sound
Verif.C100_exact: propext, Classical.choice, Quot.sound
Verif.C100_failure: propext, Classical.choice, Quot.sound
Verif.C101_listed: propext, Classical.choice, Quot.sound
Verif.C101_declared: propext, Classical.choice, Quot.sound
Verif.C101_shape: propext, Classical.choice, Quot.sound
Verif.C101_filter: propext, Classical.choice, Quot.sound
Verif.C101_name: propext, Classical.choice, Quot.sound
Verif.C101_name_no_language: propext, Classical.choice, Quot.sound
Verif.C102_object_of: propext, Classical.choice, Quot.sound
Verif.C102_inverse: propext, Classical.choice, Quot.sound
Verif.C103_resource: propext, Classical.choice, Quot.sound
Verif.C103_exact: propext, Classical.choice, Quot.sound
Verif.C103_no_language: propext, Classical.choice, Quot.sound
Verif.C103_not_scalar: propext, Classical.choice, Quot.sound
Verif.C103_text_partial: propext, Classical.choice, Quot.sound
Verif.C103_refuted: propext, Quot.sound
Verif.C103_two_labels: propext, Quot.sound
Verif.C104_iff: propext, Classical.choice, Quot.sound
Verif.C104_refuted: propext, Quot.sound
Verif.C104_explicit_partial: propext, Classical.choice, Quot.sound
Verif.C104_unmatched: propext, Classical.choice, Quot.sound
Verif.C104_list: propext
Verif.Env.C105_graph: propext, Classical.choice, Quot.sound
Verif.Env.C105_graph_back: propext
Verif.Env.C105_dataset: propext, Classical.choice, Quot.sound
Verif.Env.C105_nodes: propext, Classical.choice, Quot.sound
Verif.C106_accepts: propext, Classical.choice, Quot.sound
Verif.C106_meaning: propext, Classical.choice, Quot.sound
Verif.C106_unambiguous: propext, Classical.choice, Quot.sound
Verif.C107_exact: propext, Classical.choice, Quot.sound
Verif.C107_meaning: propext, Classical.choice, Quot.sound
Verif.C107_refuted: propext, Quot.sound
Verif.C107_strict_partial: propext, Classical.choice, Quot.sound
Verif.C107_legal_partial: propext, Classical.choice, Quot.sound
Verif.C108_never_misread: propext, Classical.choice, Quot.sound
Verif.C108_exact: propext, Classical.choice, Quot.sound
Verif.C108_one_meaning: propext, Classical.choice, Quot.sound
Verif.C108_refuted: propext, Classical.choice, Quot.sound
Verif.C108_tidy_partial: propext, Classical.choice, Quot.sound
Verif.C108_no_graph_rejected: propext, Classical.choice, Quot.sound
Verif.C108_bnode_graph_rejected: propext, Classical.choice, Quot.sound
Verif.C108_labels: propext, Quot.sound
Verif.NTTurtle.C109_partial: propext, Classical.choice, Quot.sound
Verif.NTTurtle.C109_no_base_partial: propext, Classical.choice, Quot.sound
Verif.NTTurtle.C109_illegal_iri: propext, Classical.choice, Quot.sound
Verif.NTTurtle.C109_line_feed: propext, Classical.choice, Quot.sound
Verif.NTTurtle.C109_refuted: propext, Classical.choice, Quot.sound
Verif.C11_dataset_refines_set: propext, Classical.choice, Quot.sound
Verif.C11_remove_outcome: propext, Classical.choice, Quot.sound
Verif.C11_contains_triple: propext, Classical.choice, Quot.sound
Verif.NTTurtle.C110_refuted: propext, Quot.sound
Verif.NTTurtle.C110_partial: propext, Classical.choice, Quot.sound
Verif.NTTurtle.C111_conforms: propext, Classical.choice, Quot.sound
Verif.NTTurtle.C112_exact: propext, Classical.choice, Quot.sound
Verif.NTTurtle.C112_refuted: propext, Quot.sound
Verif.NTTurtle.C112_partial: propext, Classical.choice, Quot.sound
Verif.C113_exact: propext, Classical.choice, Quot.sound
Verif.C113_refuted: propext, Classical.choice, Quot.sound
Verif.C113_classify_partial: propext, Classical.choice, Quot.sound
Verif.C114_ne: propext, Quot.sound
Verif.C114_laws: propext, Quot.sound
Verif.C115_as: propext, Quot.sound
Verif.C115_view: propext, Quot.sound
Verif.C115_string: propext, Quot.sound
Verif.C115_repr: propext, Quot.sound
Verif.C115_repr_class: propext, Quot.sound
Verif.C116_bytes: propext, Classical.choice, Quot.sound
Verif.C116_text: propext, Quot.sound
Verif.C117_members: propext, Quot.sound
Verif.C117_errors: propext, Quot.sound
Verif.C117_triples_partial: propext, Classical.choice, Quot.sound
Verif.C117_turtle: propext, Classical.choice, Quot.sound
Verif.C117_refuted: propext, Quot.sound
Verif.C117_quads: propext, Classical.choice, Quot.sound
Verif.Turtle.C118_plain_partial: propext, Classical.choice, Quot.sound
Verif.Turtle.C118_round_trip_partial: propext, Classical.choice, Quot.sound
Verif.Turtle.C118_refuted: propext, Classical.choice, Quot.sound
Verif.Turtle.C118_lists_partial: propext, Classical.choice, Quot.sound
Verif.Turtle.C118_shared_list: propext, Quot.sound
Verif.Turtle.C118_lost_list: propext, Quot.sound
Verif.Turtle.C118_lost_property: propext, Quot.sound
Verif.Turtle.C118_two_objects: propext, Quot.sound
Verif.Turtle.C118_other_language: propext, Quot.sound
Verif.C119_refuted: propext
Verif.C119_about: propext
Verif.C119_typed: propext, Quot.sound
Verif.C119_property: propext
Verif.C119_comment: propext
Verif.C119_comment_inside: propext
Verif.C119_plain_partial: propext
Verif.C119_subject_partial: propext
Verif.C119_described_partial: propext
Verif.C119_element_partial: propext, Quot.sound
Verif.C12_match_exact: propext, Classical.choice, Quot.sound
Verif.Turtle.C120_exact: propext, Classical.choice, Quot.sound
Verif.Turtle.C120_partial: propext, Classical.choice, Quot.sound
Verif.Turtle.C120_line_feed: propext, Quot.sound
Verif.Turtle.C120_refuted: propext, Quot.sound
Verif.Turtle.C121_prefixed_name: propext, Classical.choice, Quot.sound
Verif.Turtle.C121_string: propext, Classical.choice, Quot.sound
Verif.Turtle.C121_iri_reference: propext, Classical.choice, Quot.sound
Verif.C122_unambiguous: propext, Quot.sound
Verif.C122_resolve: propext, Classical.choice, Quot.sound
Verif.C122_empty: propext
Verif.C122_subclass: propext, Classical.choice, Quot.sound
Verif.C122_fresh: propext, Classical.choice, Quot.sound
Verif.Par.C123_interleaving: propext, Classical.choice, Quot.sound
Verif.Par.C123_threads: propext, Classical.choice, Quot.sound
Verif.Par.C124_exact: propext, Quot.sound
Verif.Par.C124_refuted: propext, Quot.sound
Verif.Par.C124_string_partial: propext, Classical.choice, Quot.sound
Verif.Turtle.C125_unique: propext, Classical.choice, Quot.sound
Verif.Turtle.C125_partial: propext, Classical.choice, Quot.sound
Verif.Turtle.C125_sound_partial: propext, Classical.choice, Quot.sound
Verif.Turtle.C125_refuted: propext, Classical.choice, Quot.sound
Verif.C126_iter: propext, Classical.choice, Quot.sound
Verif.C126_reads: propext, Classical.choice, Quot.sound
Verif.C126_contains: propext, Classical.choice, Quot.sound
Verif.C126_views: propext
Verif.C126_empty_subject: propext, Classical.choice, Quot.sound
Verif.C127_refuted: propext, Quot.sound
Verif.C127_ends_partial: propext, Classical.choice, Quot.sound
Verif.C127_normal: propext, Classical.choice, Quot.sound
Verif.Turtle.C127_turtle_partial: propext, Classical.choice, Quot.sound
Verif.Turtle.C127_turtle_loops: propext, Quot.sound
Verif.C127_endless: propext, Classical.choice, Quot.sound
Verif.C127_iff: propext, Classical.choice, Quot.sound
Verif.Turtle.C127_turtle_grows: propext, Classical.choice, Quot.sound
Verif.Turtle.C127_loop_fills: propext, Classical.choice, Quot.sound
Verif.C128_injective: propext, Classical.choice, Quot.sound
Verif.C128_legal_partial: propext, Classical.choice, Quot.sound
Verif.C128_legal_exact: propext, Classical.choice, Quot.sound
Verif.C128_refuted: propext, Classical.choice, Quot.sound
Verif.C128_equal_partial: propext, Classical.choice, Quot.sound
Verif.C128_equal_refuted: propext, Quot.sound
Verif.C129_raises: propext, Classical.choice, Quot.sound
Verif.C129_exact: propext, Quot.sound
Verif.C129_partial_file: propext, Classical.choice, Quot.sound
Verif.C13_match_creates_graph: propext, Quot.sound
Verif.C13_graphs_after_match: propext, Quot.sound
Verif.C13_reading_keeps_quads_partial: propext, Classical.choice, Quot.sound
Verif.Turtle.C130_refuted: propext, Quot.sound
Verif.Turtle.C130_exact: propext, Quot.sound
Verif.Turtle.C130_torn_partial: propext, Classical.choice, Quot.sound
Verif.Turtle.C130_default: propext, Quot.sound
Verif.C131_refuted: propext, Quot.sound
Verif.C131_node: propext, Classical.choice, Quot.sound
Verif.C131_which: propext, Quot.sound
Verif.C131_colon_partial: propext, Classical.choice, Quot.sound
Verif.C131_exact: propext, Classical.choice, Quot.sound
Verif.C132_selection: propext, Classical.choice, Quot.sound
Verif.C132_read: propext, Classical.choice, Quot.sound
Verif.C132_iter: propext, Classical.choice, Quot.sound
Verif.C132_ntriples: propext, Classical.choice, Quot.sound
Verif.C132_turtle: propext, Classical.choice, Quot.sound
Verif.C132_saved_loaded: propext, Classical.choice, Quot.sound
Verif.C132_list: propext, Classical.choice, Quot.sound
Verif.C133_independent: propext, Classical.choice, Quot.sound
Verif.C133_any_order: propext, Classical.choice, Quot.sound
Verif.C133_needs_plain: propext, Quot.sound
Verif.C134_repeat: propext, Classical.choice, Quot.sound
Verif.C134_two_tags: propext, Quot.sound
Verif.C135_refuted: propext, Quot.sound
Verif.C135_partial: propext, Classical.choice, Quot.sound
Verif.C135_exact: propext, Classical.choice, Quot.sound
Verif.C136_string: propext, Classical.choice, Quot.sound
Verif.C136_members: propext, Classical.choice, Quot.sound
Verif.C136_rejected: propext, Classical.choice, Quot.sound
Verif.C136_stream: propext, Classical.choice, Quot.sound
Verif.C136_stream_lines: propext, Classical.choice, Quot.sound
Verif.C137_exact: propext, Classical.choice, Quot.sound
Verif.C137_stream: propext, Classical.choice, Quot.sound
Verif.C137_turtle: propext, Classical.choice, Quot.sound
Verif.C137_refuted: propext, Classical.choice, Quot.sound
Verif.C138_undisturbed: propext, Classical.choice, Quot.sound
Verif.C138_visits: propext, Classical.choice, Quot.sound
Verif.C138_resource: propext, Classical.choice, Quot.sound
Verif.C139_refuted: propext
Verif.C139_skips: propext
Verif.C139_partial: propext, Classical.choice, Quot.sound
Verif.C14_removeMatches_raises: propext, Classical.choice, Quot.sound
Verif.C14_removeMatches_exact: propext, Classical.choice, Quot.sound
Verif.C14_removeMatches_partial: propext, Classical.choice, Quot.sound
Verif.C140_snapshot: propext, Classical.choice, Quot.sound
Verif.C140_literals: propext, Classical.choice, Quot.sound
Verif.C140_empties: propext, Classical.choice, Quot.sound
Verif.C141_order: propext, Classical.choice, Quot.sound
Verif.C141_own: propext, Classical.choice, Quot.sound
Verif.C141_inherited: propext, Classical.choice, Quot.sound
Verif.C141_first_giver: propext, Quot.sound
Verif.C141_single: propext, Classical.choice, Quot.sound
Verif.C141_first_refuted: propext, Quot.sound
Verif.C141_c3: propext, Classical.choice, Quot.sound
Verif.C141_accepts_iff: propext, Classical.choice, Quot.sound
Verif.C141_no_order: propext, Classical.choice, Quot.sound
Verif.C142_refuted: propext, Quot.sound
Verif.C142_exact: propext, Classical.choice, Quot.sound
Verif.C142_ground: propext, Classical.choice, Quot.sound
Verif.C143_values: propext, Classical.choice, Quot.sound
Verif.C143_ntriples: propext, Classical.choice, Quot.sound
Verif.C143_scalar: propext, Classical.choice, Quot.sound
Verif.Turtle.C144_uniform: propext, Classical.choice, Quot.sound
Verif.Turtle.C144_refuted: propext, Quot.sound
Verif.Turtle.C144_exact: propext, Classical.choice, Quot.sound
Verif.Turtle.C144_ground: propext, Classical.choice, Quot.sound
Verif.C145_exact: propext, Classical.choice, Quot.sound
Verif.C145_set: propext, Classical.choice, Quot.sound
Verif.C145_overwrite: propext, Classical.choice, Quot.sound
Verif.C145_scalar_refuted: propext, Quot.sound
Verif.C146_objects: propext, Classical.choice, Quot.sound
Verif.C146_contains: propext, Classical.choice, Quot.sound
Verif.C146_match: propext, Classical.choice, Quot.sound
Verif.C146_match_named: propext, Classical.choice, Quot.sound
Verif.C146_iter: propext, Classical.choice, Quot.sound
Verif.C146_len: propext, Classical.choice, Quot.sound
Verif.C146_live: propext, Classical.choice, Quot.sound
Verif.C147_loads: propext, Classical.choice, Quot.sound
Verif.C147_exact: propext, Classical.choice, Quot.sound
Verif.C147_refuted: propext, Quot.sound
Verif.C147_partial: propext, Classical.choice, Quot.sound
Verif.C148_loads: propext, Classical.choice, Quot.sound
Verif.C148_graph: propext, Classical.choice, Quot.sound
Verif.C148_document: propext, Classical.choice, Quot.sound
Verif.C148_first_changes: propext, Classical.choice, Quot.sound
Verif.C149_written: propext, Classical.choice, Quot.sound
Verif.C149_turtle: propext, Classical.choice, Quot.sound
Verif.C149_reads: propext, Classical.choice, Quot.sound
Verif.C149_exact: propext, Classical.choice, Quot.sound
Verif.C149_partial: propext, Classical.choice, Quot.sound
Verif.C149_list_unwritable: propext, Quot.sound
Verif.C149_refuted: propext, Quot.sound
Verif.C149_tag_unread: propext, Quot.sound
Verif.C149_accent_changes: propext, Quot.sound
Verif.C15_unnamed_accepted: propext
Verif.C15_remove_graph_noop: none
Verif.C15_violated: propext, Classical.choice, Quot.sound
Verif.C15_add_graph_exact_partial: propext, Quot.sound
Verif.C150_string: propext, Quot.sound
Verif.C150_raises: propext, Classical.choice, Quot.sound
Verif.C150_exact: propext, Classical.choice, Quot.sound
Verif.C150_refuted: propext, Quot.sound
Verif.C150_partial: propext, Classical.choice, Quot.sound
Verif.C151_others: propext, Classical.choice, Quot.sound
Verif.C151_class: propext, Classical.choice, Quot.sound
Verif.C151_other_names: propext, Classical.choice, Quot.sound
Verif.C151_partial: propext, Classical.choice, Quot.sound
Verif.C151_refuted: propext, Quot.sound
Verif.C152_exact: propext, Classical.choice, Quot.sound
Verif.C152_class: propext, Classical.choice, Quot.sound
Verif.C152_read: propext, Classical.choice, Quot.sound
Verif.C153_graph: propext, Classical.choice, Quot.sound
Verif.C153_partial: propext, Classical.choice, Quot.sound
Verif.C153_refuted: propext, Classical.choice, Quot.sound
Verif.Turtle.C154_string: propext, Quot.sound
Verif.Turtle.C154_number: propext, Quot.sound
Verif.Turtle.C154_iri: propext, Quot.sound
Verif.Turtle.C154_tag: propext, Quot.sound
Verif.Turtle.C154_refuted: propext, Classical.choice, Quot.sound
Verif.Turtle.C154_turtle_partial: propext, Classical.choice, Quot.sound
Verif.Turtle.C154_ntriples_partial: propext, Classical.choice, Quot.sound
Verif.Turtle.C155_halved: propext, Quot.sound
Verif.Turtle.C155_again: propext, Quot.sound
Verif.Turtle.C155_refuted: propext, Quot.sound
Verif.Turtle.C155_partial: propext, Classical.choice, Quot.sound
Verif.Turtle.C156_date: propext, Quot.sound
Verif.Turtle.C156_refuted: propext, Quot.sound
Verif.Turtle.C156_unreadable: propext, Classical.choice, Quot.sound
Verif.Turtle.C156_exact: propext, Classical.choice, Quot.sound
Verif.C157_in_graph: propext, Classical.choice, Quot.sound
Verif.C157_in_graph_same: propext, Classical.choice, Quot.sound
Verif.C157_in_graph_two: propext, Classical.choice, Quot.sound
Verif.C157_partial: propext, Classical.choice, Quot.sound
Verif.C157_subclass: propext, Classical.choice, Quot.sound
Verif.C157_either_way: propext, Quot.sound
Verif.C157_refuted: propext, Quot.sound
Verif.C157_language: propext, Quot.sound
Verif.C158_partial: propext, Classical.choice, Quot.sound
Verif.C158_exact: propext, Classical.choice, Quot.sound
Verif.C158_refuted: propext, Quot.sound
Verif.C159_dataset: propext, Classical.choice, Quot.sound
Verif.C159_files: propext, Classical.choice, Quot.sound
Verif.C159_exact: propext, Classical.choice, Quot.sound
Verif.C159_graph: propext, Classical.choice, Quot.sound
Verif.C159_lines: propext, Classical.choice, Quot.sound
Verif.C159_stream: propext, Classical.choice, Quot.sound
Verif.C16_alias_misreported: propext, Classical.choice, Quot.sound
Verif.C16_iter_eq_match_partial: propext, Classical.choice, Quot.sound
Verif.C16_iff: propext, Classical.choice, Quot.sound
Verif.Turtle.C160_means_same: propext, Classical.choice, Quot.sound
Verif.Turtle.C160_refuted: propext, Quot.sound
Verif.Turtle.C160_partial: propext, Classical.choice, Quot.sound
Verif.Turtle.C160_perm: propext
Verif.C161_outcome: propext, Classical.choice, Quot.sound
Verif.C161_any_order: propext, Classical.choice, Quot.sound
Verif.C161_union: propext, Classical.choice, Quot.sound
Verif.C161_ds_outcome: propext, Classical.choice, Quot.sound
Verif.C161_ds_any_order: propext, Classical.choice, Quot.sound
Verif.C162_set: propext, Classical.choice, Quot.sound
Verif.C162_sound: propext, Classical.choice, Quot.sound
Verif.C162_partial: propext, Classical.choice, Quot.sound
Verif.C162_locked: propext, Classical.choice, Quot.sound
Verif.C162_alone: propext, Classical.choice, Quot.sound
Verif.C162_lost: propext
Verif.C162_refuted: propext, Classical.choice, Quot.sound
Verif.C162_ghost: propext
Verif.C162_adds: propext, Classical.choice, Quot.sound
Verif.C162_repair: propext, Classical.choice, Quot.sound
Verif.C162_some: propext, Classical.choice, Quot.sound
Verif.C163_locked: propext, Classical.choice, Quot.sound
Verif.C163_partial: propext, Classical.choice, Quot.sound
Verif.C163_own_graphs: propext, Classical.choice, Quot.sound
Verif.C163_ends: propext, Classical.choice, Quot.sound
Verif.C163_alone: propext, Classical.choice, Quot.sound
Verif.C163_lost: propext
Verif.C163_refuted: propext, Classical.choice, Quot.sound
Verif.C163_sound: propext, Classical.choice, Quot.sound
Verif.C163_nameless: propext
Verif.C164_sound: propext, Classical.choice, Quot.sound
Verif.C164_partial: propext, Classical.choice, Quot.sound
Verif.C164_raises: propext
Verif.C164_refuted: propext, Classical.choice, Quot.sound
Verif.C164_skips: propext
Verif.C164_one_way: propext, Classical.choice, Quot.sound
Verif.C164_adds: propext, Classical.choice, Quot.sound
Verif.C164_removes: propext, Classical.choice, Quot.sound
Verif.C164_bound: propext
Verif.C165_partial: propext, Classical.choice, Quot.sound
Verif.C165_locked: propext, Classical.choice, Quot.sound
Verif.C165_one_writer: propext, Classical.choice, Quot.sound
Verif.C165_sound: propext, Classical.choice, Quot.sound
Verif.C165_wipes: propext
Verif.C165_new: propext, Classical.choice, Quot.sound
Verif.C165_refuted: propext, Classical.choice, Quot.sound
Verif.C166_exact: propext, Classical.choice, Quot.sound
Verif.C166_refuted: propext, Quot.sound
Verif.C166_string_partial: propext, Classical.choice, Quot.sound
Verif.C166_nquads: propext, Classical.choice, Quot.sound
Verif.C166_stream_partial: propext, Classical.choice, Quot.sound
Verif.C166_torn: propext, Classical.choice, Quot.sound
Verif.C166_written: propext, Classical.choice, Quot.sound
Verif.Turtle.C167_refuted: propext, Quot.sound
Verif.Turtle.C167_own_file: propext, Quot.sound
Verif.Turtle.C167_long_string: propext, Quot.sound
Verif.Turtle.C167_tokens_partial: propext, Classical.choice, Quot.sound
Verif.Turtle.C167_white_partial: propext, Classical.choice, Quot.sound
Verif.Turtle.C167_triples_partial: propext, Classical.choice, Quot.sound
Verif.C168_ntriples: propext, Quot.sound
Verif.C168_nquads: propext, Quot.sound
Verif.C168_turtle: propext, Quot.sound
Verif.C168_complete: none
Verif.C168_read: propext, Classical.choice, Quot.sound
Verif.C168_turtle_read: propext, Quot.sound
Verif.C169_refuted: propext, Quot.sound
Verif.C169_reported: propext, Quot.sound
Verif.C169_first: propext, Quot.sound
Verif.C169_exact: propext, Quot.sound
Verif.C169_partial: propext, Quot.sound
Verif.C17_qt_inverse: propext
Verif.C17_make: propext
Verif.C17_asdict: propext, Quot.sound
Verif.C17_replace: propext, Classical.choice, Quot.sound
Verif.C17_fields: none
Verif.C17_literal: propext
Verif.Turtle.C170_turtle: propext, Classical.choice, Quot.sound
Verif.Turtle.C170_read: propext, Classical.choice, Quot.sound
Verif.C170_ntriples: propext, Classical.choice, Quot.sound
Verif.Turtle.C171_layout: propext, Classical.choice, Quot.sound
Verif.Turtle.C172_local: propext, Classical.choice, Quot.sound
Verif.Turtle.C172_blank: propext, Quot.sound
Verif.Turtle.C173_stable: propext, Classical.choice, Quot.sound
Verif.Turtle.C173_plain: propext, Quot.sound
Verif.C174_ntriples_exact: propext, Classical.choice, Quot.sound
Verif.C174_ntriples_partial: propext, Classical.choice, Quot.sound
Verif.C174_turtle_exact: propext, Classical.choice, Quot.sound
Verif.C174_turtle_partial: propext, Classical.choice, Quot.sound
Verif.C174_ntriples_same: propext, Quot.sound
Verif.C174_turtle_same: propext, Quot.sound
Verif.C174_refuted: propext, Quot.sound
Verif.C175_exact: propext, Classical.choice, Quot.sound
Verif.C175_partial: propext, Classical.choice, Quot.sound
Verif.C175_refuted: propext, Quot.sound
Verif.Turtle.C176_exact: propext, Classical.choice, Quot.sound
Verif.Turtle.C176_conflated: propext, Quot.sound
Verif.Turtle.C176_refuted: propext, Classical.choice, Quot.sound
Verif.Turtle.C176_partial: propext, Classical.choice, Quot.sound
Verif.C177_exact: propext, Classical.choice, Quot.sound
Verif.C177_union: propext, Classical.choice, Quot.sound
Verif.C18_escape_safe: propext, Classical.choice, Quot.sound
Verif.C19_controls_dropped: propext, Quot.sound
Verif.C19_decode_escape_exact: propext, Classical.choice, Quot.sound
Verif.C19_roundtrip_partial: propext, Classical.choice, Quot.sound
Verif.C20_not_injective: propext
Verif.C20_written_alike_iff: propext, Classical.choice, Quot.sound
Verif.C20_injective_partial: propext, Classical.choice, Quot.sound
Verif.C21_raises: propext, Classical.choice, Quot.sound
Verif.C21_transparent: propext, Quot.sound
Verif.C21_raises_only: propext, Classical.choice, Quot.sound
Verif.C22_quote_ascii_idempotent: propext, Classical.choice, Quot.sound
Verif.C22_surrogate_raises: propext, Classical.choice, Quot.sound
Verif.C23_toNT_legal: propext, Classical.choice, Quot.sound
Verif.C23_percent_decodes: propext, Classical.choice, Quot.sound
Verif.C24_not_injective: none
Verif.C24_written_alike_iff: propext, Classical.choice, Quot.sound
Verif.C24_injective_no_percent_partial: propext, Classical.choice, Quot.sound
Verif.C24_injective_normalized_partial: propext, Classical.choice, Quot.sound
Verif.C24_injective_normalized: propext, Classical.choice, Quot.sound
Verif.C25_not_idempotent: propext
Verif.C25_idempotent_partial: propext, Classical.choice, Quot.sound
Verif.C25_total_without_percent: propext, Classical.choice, Quot.sound
Verif.C25_fixed_iff: propext, Classical.choice, Quot.sound
Verif.C25_shorter: propext, Classical.choice, Quot.sound
Verif.C25_settles: propext, Classical.choice, Quot.sound
Verif.C26_space_lost: propext
Verif.C26_quote_normalize_partial: propext, Classical.choice, Quot.sound
Verif.C26_exact: propext, Classical.choice, Quot.sound
Verif.C27_utf8_is_core: propext, Classical.choice, Quot.sound
Verif.C27_percent_encode: propext, Classical.choice, Quot.sound
Verif.C27_surrogate: propext, Quot.sound
Verif.C28_read: propext, Classical.choice, Quot.sound
Verif.C28_labels_distinct: propext, Classical.choice, Quot.sound
Verif.C28_labels_legal: propext, Classical.choice, Quot.sound
Verif.C29_empty_raises_index_error: propext, Quot.sound
Verif.C29_rules_partial: propext, Quot.sound
Verif.C29_parse_curies: propext
Verif.C30_replaces_every_occurrence: propext, Quot.sound
Verif.C30_choice_exact: propext, Classical.choice, Quot.sound
Verif.C30_shrink_partial: propext, Classical.choice, Quot.sound
Verif.C30_exact: propext, Classical.choice, Quot.sound
Verif.C30_iff: propext, Classical.choice, Quot.sound
Verif.C31_roundtrip_fails: propext
Verif.C31_roundtrip_partial: propext, Classical.choice, Quot.sound
Verif.C31_exact: propext, Classical.choice, Quot.sound
Verif.C31_iff: propext, Classical.choice, Quot.sound
Verif.C31_unmatched: propext, Classical.choice, Quot.sound
Verif.C32_addAll: propext, Quot.sound
Verif.C33_termmap: propext, Quot.sound
Verif.C34_profile: propext, Quot.sound
Verif.C35_new_objects: propext, Quot.sound
Verif.C35_empty: propext, Quot.sound
Verif.C35_copies_independent: propext, Quot.sound
Verif.C35_termmap_copy_loses_default: propext
Verif.C35_profile_shared: propext, Quot.sound
Verif.C35_empty_terms_not_shared: propext
Verif.C36_reflexive_symmetric: propext
Verif.C36_regions: propext
Verif.C36_not_transitive: none
Verif.C37_roundtrip_exact: propext, Classical.choice, Quot.sound
Verif.C37_iri_changed: propext, Quot.sound
Verif.C37_roundtrip_partial: propext, Classical.choice, Quot.sound
Verif.C38_exact: propext, Classical.choice, Quot.sound
Verif.C38_iff: propext, Classical.choice, Quot.sound
Verif.C38_language_breaks_framing: propext, Quot.sound
Verif.C38_framing_partial: propext, Classical.choice, Quot.sound
Verif.C38_concatenation: propext, Quot.sound
Verif.C39_blank_line: propext, Quot.sound
Verif.C39_stream_partial: propext, Classical.choice, Quot.sound
Verif.C39_blank_line_raises: propext, Classical.choice, Quot.sound
Verif.C39_exact: propext, Classical.choice, Quot.sound
Verif.C40_string_atomic: propext, Quot.sound
Verif.C40_stream_loses: propext, Quot.sound
Verif.C40_stream_exact: propext, Quot.sound
Verif.C40_stream_partial: propext, Classical.choice, Quot.sound
Verif.C41_labels_scoped: propext, Quot.sound
Verif.C41_labels_scoped_stream: propext, Quot.sound
Verif.C41_parses_disjoint: propext, Quot.sound
Verif.C42_graph: propext, Classical.choice, Quot.sound
Verif.C42_digit_rejected: propext, Quot.sound
Verif.C42_exact: propext, Classical.choice, Quot.sound
Verif.C42_language_partial: propext, Classical.choice, Quot.sound
Verif.C43_never_isomorphic: propext, Classical.choice, Quot.sound
Verif.C43_never_same: propext, Classical.choice, Quot.sound
Verif.C43_not_readable: propext, Classical.choice, Quot.sound
Verif.C43_never_read: propext, Classical.choice, Quot.sound
Verif.C43_empty_partial: propext, Quot.sound
Verif.C44_accepted: propext, Quot.sound
Verif.C44_exact: propext, Classical.choice, Quot.sound
Verif.C44_other_white_space_partial: propext, Classical.choice, Quot.sound
Verif.C45_nonscalar: propext, Classical.choice, Quot.sound
Verif.C45_nonscalar_fails: propext, Classical.choice, Quot.sound
Verif.C45_scalar: propext, Classical.choice, Quot.sound
Verif.C45_empty_lang: propext, Quot.sound
Verif.C46_set_frame: propext, Classical.choice, Quot.sound
Verif.C46_set_reach: propext, Classical.choice, Quot.sound
Verif.C46_set_atomic: propext, Classical.choice, Quot.sound
Verif.C47_languages_coexist: propext, Classical.choice, Quot.sound
Verif.C47_read_back: propext, Classical.choice, Quot.sound
Verif.C47_both_keyError: propext, Classical.choice, Quot.sound
Verif.C48_del_exact: propext, Classical.choice, Quot.sound
Verif.C48_del_error: propext, Classical.choice, Quot.sound
Verif.C48_del_then_absent: propext, Classical.choice, Quot.sound
Verif.C48_del_name_then_absent: propext, Classical.choice, Quot.sound
Verif.C48_del_class_then_absent: propext, Classical.choice, Quot.sound
Verif.C49_contains: propext, Classical.choice, Quot.sound
Verif.C50_erase_exact: propext, Classical.choice, Quot.sound
Verif.C50_erase_partial: propext, Classical.choice, Quot.sound
Verif.C50_refuted: propext, Classical.choice, Quot.sound
Verif.C51_new_exact: propext, Classical.choice, Quot.sound
Verif.C51_new_partial: propext, Classical.choice, Quot.sound
Verif.C51_refuted: propext, Classical.choice, Quot.sound
Verif.C51_blank_not_instance: propext, Classical.choice, Quot.sound
Verif.C52_in_graph_partial: propext, Classical.choice, Quot.sound
Verif.C52_refuted: propext, Quot.sound
Verif.C52_in_graph_sound: propext, Classical.choice, Quot.sound
Verif.C52_exact: propext, Classical.choice, Quot.sound
Verif.C53_literal: propext, Quot.sound
Verif.C53_unregistered: propext, Classical.choice, Quot.sound
Verif.C53_one: propext, Classical.choice, Quot.sound
Verif.C53_inherits_partial: propext, Classical.choice, Quot.sound
Verif.C53_fresh_new: propext
Verif.C53_fresh_define: propext, Classical.choice, Quot.sound
Verif.C53_fresh_setPrefix: propext, Classical.choice, Quot.sound
Verif.C53_fresh_setLang: propext, Classical.choice, Quot.sound
Verif.C53_fresh_register: propext, Classical.choice, Quot.sound
Verif.C53_fresh_classify: propext, Classical.choice, Quot.sound
Verif.C53_same_class: propext, Classical.choice, Quot.sound
Verif.C53_direct_subclasses_ok: propext, Classical.choice, Quot.sound
Verif.C53_refuted: propext, Quot.sound
Verif.C53_stale: propext, Classical.choice, Quot.sound
Verif.C53_exact: propext, Classical.choice, Quot.sound
Verif.C53_registered_twice: propext, Classical.choice, Quot.sound
Verif.C54_symm: propext, Quot.sound
Verif.C54_refl: propext, Quot.sound
Verif.C54_refuted: propext, Quot.sound
Verif.C54_hash_refuted: propext, Classical.choice, Quot.sound
Verif.C54_partial: propext, Quot.sound
Verif.C54_resources: propext, Quot.sound
Verif.C55_copy_exact: propext, Classical.choice, Quot.sound
Verif.C55_refuted: propext, Quot.sound
Verif.C56_unresolved_is_wildcard: propext, Classical.choice, Quot.sound
Verif.C56_refuted: propext, Quot.sound
Verif.C56_unresolved_set: propext, Classical.choice, Quot.sound
Verif.C56_unknown_prefix_partial: propext, Quot.sound
Verif.C56_unknown_prefix_raises: propext, Quot.sound
Verif.C57_names: propext, Classical.choice, Quot.sound
Verif.C57_inherited: propext, Classical.choice, Quot.sound
Verif.C57_sees_all: propext, Classical.choice, Quot.sound
Verif.C57_others_kept: propext, Quot.sound
Verif.C58_list_class: propext, Quot.sound
Verif.C58_exact: propext, Classical.choice, Quot.sound
Verif.C58_iff: propext, Classical.choice, Quot.sound
Verif.C58_list_partial: propext, Classical.choice, Quot.sound
Verif.C58_list_no_classes: propext, Classical.choice, Quot.sound
Verif.C58_refuted: propext, Quot.sound
Verif.C58_cyclic_never_ends: propext, Quot.sound
Verif.C58_is_list: propext, Classical.choice, Quot.sound
Verif.C58_finished: propext, Quot.sound
Verif.C59_partition: propext, Classical.choice, Quot.sound
Verif.Turtle.C60_output: propext, Classical.choice, Quot.sound
Verif.Turtle.C60_exact: propext, Classical.choice, Quot.sound
Verif.Turtle.C60_exact_w3c: propext, Classical.choice, Quot.sound
Verif.Turtle.C60_refuted: propext, Classical.choice, Quot.sound
Verif.Turtle.C60_string_partial: propext, Classical.choice, Quot.sound
Verif.Turtle.C61_writes_partial: propext, Classical.choice, Quot.sound
Verif.Turtle.C61_exact: propext, Classical.choice, Quot.sound
Verif.Turtle.C61_blank_node: propext, Quot.sound
Verif.Turtle.C61_same_name: propext, Quot.sound
Verif.Turtle.C61_list_of_iris: propext, Quot.sound
Verif.Turtle.C61_refuted: propext, Quot.sound
Verif.Turtle.C62_base_partial: propext, Classical.choice, Quot.sound
Verif.Turtle.C62_denotes_partial: propext, Classical.choice, Quot.sound
Verif.Turtle.C62_plain_literal: propext, Quot.sound
Verif.Turtle.C62_typed_literal: propext, Quot.sound
Verif.Turtle.C62_slash: propext, Quot.sound
Verif.Turtle.C62_dot: propext, Quot.sound
Verif.Turtle.C62_refuted: propext, Quot.sound
Verif.Turtle.C63_document_partial: propext, Classical.choice, Quot.sound
Verif.Turtle.C63_exact: propext, Classical.choice, Quot.sound
Verif.Turtle.C63_partial: propext, Classical.choice, Quot.sound
Verif.Turtle.C63_generator: propext, Quot.sound
Verif.Turtle.C63_refuted: propext
Verif.Turtle.C64_partial: propext, Classical.choice, Quot.sound
Verif.Turtle.C64_is_list: propext
Verif.Turtle.C64_iterate: propext, Classical.choice, Quot.sound
Verif.Turtle.C64_refuted: propext, Quot.sound
Verif.Turtle.C65_base_unique: propext, Classical.choice, Quot.sound
Verif.Turtle.C65_prefix_unique: propext, Classical.choice, Quot.sound
Verif.Turtle.C65_scope: propext, Classical.choice, Quot.sound
Verif.Turtle.C65_accepts: propext, Classical.choice, Quot.sound
Verif.Turtle.C66_exact: propext, Quot.sound
Verif.Turtle.C66_refuted: propext, Quot.sound
Verif.Turtle.C66_bytes_partial: propext, Classical.choice, Quot.sound
Verif.C67_fragment: propext, Quot.sound
Verif.C67_no_base: propext, Quot.sound
Verif.C68_query_request: propext, Classical.choice, Quot.sound
Verif.C68_unencodable: propext
Verif.C69_update_request: propext, Classical.choice, Quot.sound
Verif.C70_query_exact: propext, Classical.choice, Quot.sound
Verif.C70_refuted: propext, Classical.choice, Quot.sound
Verif.C70_json_partial: propext, Classical.choice, Quot.sound
Verif.C70_update_exact: propext, Classical.choice, Quot.sound
Verif.C70_network_error: propext, Classical.choice, Quot.sound
Verif.C71_differences: propext, Classical.choice, Quot.sound
Verif.C71_once: propext
Verif.C72_changeset: propext, Classical.choice, Quot.sound
Verif.C73_never_sent: none
Verif.C73_no_address: none
Verif.C73_refuted: none
Verif.C74_quads: propext, Classical.choice, Quot.sound
Verif.C74_order: propext, Quot.sound
Verif.C75_refuted: propext, Classical.choice, Quot.sound
Verif.C75_partial: propext, Classical.choice, Quot.sound
Verif.C75_exact: propext, Quot.sound
Verif.C76_refuted: propext
Verif.C76_always_valueError: propext
Verif.C77_one_or_none: propext
Verif.C78_grouper: propext, Classical.choice, Quot.sound
Verif.C78_exact_multiple: propext, Classical.choice, Quot.sound
Verif.C78_zero: none
Verif.C79_int_literal: propext, Classical.choice, Quot.sound
Verif.C80_string_errors: propext, Classical.choice, Quot.sound
Verif.C80_stream_errors: propext, Classical.choice, Quot.sound
Verif.C81_comment_rejected: propext, Quot.sound
Verif.C81_comments_never_read: propext, Classical.choice, Quot.sound
Verif.C82_exact: propext, Classical.choice, Quot.sound
Verif.C82_partial: propext, Classical.choice, Quot.sound
Verif.C82_refuted: propext, Quot.sound
Verif.C82_concatenation: propext, Classical.choice, Quot.sound
Verif.C83_filter_selection: propext, Classical.choice, Quot.sound
Verif.C83_name_selection: propext, Classical.choice, Quot.sound
Verif.C83_scalar_selection: propext, Classical.choice, Quot.sound
Verif.C83_scalar_no_language: propext, Classical.choice, Quot.sound
Verif.C83_class_selection: propext, Classical.choice, Quot.sound
Verif.C84_language_filter: propext, Classical.choice, Quot.sound
Verif.C84_datatype_filter: propext, Classical.choice, Quot.sound
Verif.C84_wrong_language: propext, Classical.choice, Quot.sound
Verif.C84_class_filter: propext, Classical.choice, Quot.sound
Verif.C85_reference_refused: propext, Classical.choice, Quot.sound
Verif.C85_refuted: propext, Classical.choice, Quot.sound
Verif.C85_set_datatype: propext, Quot.sound
Verif.C86_scalar_language: propext, Classical.choice, Quot.sound
Verif.C86_scalar_datatype: propext, Classical.choice, Quot.sound
Verif.C86_scalar_class: propext, Classical.choice, Quot.sound
Verif.C86_scalar_class_set: propext, Classical.choice, Quot.sound
Verif.C87_unassignable: propext, Quot.sound
Verif.C87_sets_raise: propext, Quot.sound
Verif.C87_refuted: propext, Quot.sound
Verif.C88_denotes: propext, Classical.choice, Quot.sound
Verif.C88_too_large: propext, Classical.choice, Quot.sound
Verif.C88_total: propext, Classical.choice, Quot.sound
Verif.C88_every: propext, Classical.choice, Quot.sound
Verif.C88_unique: propext, Classical.choice, Quot.sound
Verif.C89_refuted: propext, Quot.sound
Verif.C89_never_equal: propext
Verif.C90_refuted: none
Verif.C90_exact: propext, Quot.sound
Verif.C90_after_failure: propext, Quot.sound
Verif.C91_exact: propext, Classical.choice, Quot.sound
Verif.C91_iff: propext, Classical.choice, Quot.sound
Verif.C91_no_authority: propext, Classical.choice, Quot.sound
Verif.C91_refuted: propext, Quot.sound
Verif.C91_partial: propext, Classical.choice, Quot.sound
Verif.C92_network_exact: propext, Classical.choice, Quot.sound
Verif.C92_network_partial: propext, Classical.choice, Quot.sound
Verif.C92_network_dots: propext, Quot.sound
Verif.C92_empty: propext
Verif.C92_empty_base: propext
Verif.C92_refuted: propext, Quot.sound
Verif.C92_partial: propext, Classical.choice, Quot.sound
Verif.Turtle.C93_exact: propext, Classical.choice, Quot.sound
Verif.Turtle.C93_unambiguous: propext, Classical.choice, Quot.sound
Verif.Turtle.C94_all_or_nothing: propext, Classical.choice, Quot.sound
Verif.Turtle.C94_graph: propext, Classical.choice, Quot.sound
Verif.Turtle.C95_exact: propext, Classical.choice, Quot.sound
Verif.Turtle.C95_refuted: propext, Quot.sound
Verif.Turtle.C95_partial: propext, Classical.choice, Quot.sound
Verif.Turtle.C96_exact: propext, Classical.choice, Quot.sound
Verif.Turtle.C96_refuted: propext, Quot.sound
Verif.Turtle.C96_partial: propext, Classical.choice, Quot.sound
Verif.Turtle.C96_layout: propext, Classical.choice, Quot.sound
Verif.Turtle.C97_base_partial: propext, Classical.choice, Quot.sound
Verif.Turtle.C97_base_cut: propext, Quot.sound
Verif.Turtle.C97_round_trip_partial: propext, Classical.choice, Quot.sound
Verif.Turtle.C97_same_graph_partial: propext, Classical.choice, Quot.sound
Verif.Turtle.C97_stale_subject: propext, Quot.sound
Verif.Turtle.C97_refuted: propext, Classical.choice, Quot.sound
Verif.Turtle.C98_orders_partial: propext, Classical.choice, Quot.sound
Verif.Turtle.C98_same_text_partial: propext, Classical.choice, Quot.sound
Verif.Turtle.C98_object_order: propext, Quot.sound
Verif.Turtle.C98_refuted: propext, Classical.choice, Quot.sound
Verif.Turtle.C98_exact: propext, Classical.choice, Quot.sound
Verif.C99_operations: propext, Quot.sound
Verif.C99_others: propext, Quot.sound
Verif.C99_resolve: propext, Quot.sound
Verif.C99_histories: propext, Quot.sound