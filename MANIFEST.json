{
 "claims": [
  {
   "property": "C01",
   "status": "proved",
   "theorems": [
    "Verif.LineIndex.offset_lineCol_roundtrip",
    "Verif.LineIndex.lineCol_offset_roundtrip"
   ],
   "note": ""
  },
  {
   "property": "C02",
   "status": "proved",
   "theorems": [
    "Verif.LineIndex.lineCol_is_position"
   ],
   "note": ""
  },
  {
   "property": "C03",
   "status": "proved",
   "theorems": [
    "Verif.LineIndex.toUtf16_is_unit_count",
    "Verif.LineIndex.toUtf8_is_byte_count",
    "Verif.LineIndex.utf16_roundtrip",
    "Verif.LineIndex.toUtf16_total"
   ],
   "note": ""
  },
  {
   "property": "C04",
   "status": "proved",
   "theorems": [
    "Verif.LineIndex.position_order_iff"
   ],
   "note": ""
  },
  {
   "property": "C05",
   "status": "proved",
   "theorems": [
    "Verif.LineIndex.lines_tile_range"
   ],
   "note": ""
  },
  {
   "property": "C06",
   "status": "proved",
   "theorems": [
    "Verif.Edits.changes_are_sequential",
    "Verif.Edits.changes_follow_protocol",
    "Verif.Edits.reversed_range_uses_stale_index"
   ],
   "note": "Holds for every change list in which no range starts on a later line than it ends; reversed_range_uses_stale_index shows the restriction is needed."
  },
  {
   "property": "C07",
   "status": "proved",
   "theorems": [
    "Verif.Edits.edit_replaces_range",
    "Verif.Edits.changes_follow_protocol"
   ],
   "note": ""
  },
  {
   "property": "C08",
   "status": "proved",
   "theorems": [
    "Verif.Server.analysis_text_is_client_text"
   ],
   "note": ""
  },
  {
   "property": "C09",
   "status": "proved",
   "theorems": [
    "Verif.Server.conforming_traffic_does_not_crash",
    "Verif.Server.known_files_are_complete"
   ],
   "note": "For fewer opened paths than file ids (2^32 - 1)."
  },
  {
   "property": "C10",
   "status": "proved",
   "theorems": [
    "Verif.Server.versions_are_current"
   ],
   "note": ""
  },
  {
   "property": "C11",
   "status": "proved",
   "theorems": [
    "Verif.LineEndings.normalize_replaces_crlf",
    "Verif.LineEndings.crlfToLf_functional",
    "Verif.LineEndings.normalize_agrees",
    "Verif.LineEndings.normalize_idempotent_iff",
    "Verif.LineEndings.normalize_idempotent_partial",
    "Verif.LineEndings.normalize_not_idempotent"
   ],
   "note": "The statement is proved in full. Beyond it: idempotence holds just for the texts without CR CR LF (normalize_idempotent_iff)."
  },
  {
   "property": "C12",
   "status": "proved",
   "theorems": [
    "Verif.Vfs.path_of_id_is_stable",
    "Verif.Vfs.id_of_path_is_stable",
    "Verif.Vfs.id_is_never_reused",
    "Verif.Vfs.path_of_id_of_path",
    "Verif.Vfs.history_does_not_panic"
   ],
   "note": ""
  },
  {
   "property": "C13",
   "status": "proved",
   "theorems": [
    "Verif.Vfs.reads_last_write"
   ],
   "note": ""
  },
  {
   "property": "C14",
   "status": "proved",
   "theorems": [
    "Verif.Vfs.change_log_replays",
    "Verif.Vfs.change_log_exact",
    "Verif.Vfs.set_reports_change",
    "Verif.Vfs.second_drain_is_empty"
   ],
   "note": ""
  },
  {
   "property": "C15",
   "status": "proved",
   "theorems": [
    "Verif.Vfs.iter_lists_live_files",
    "Verif.Vfs.visible_iff_live"
   ],
   "note": ""
  },
  {
   "property": "C16",
   "status": "proved",
   "theorems": [
    "Verif.FileSet.partition_exact",
    "Verif.FileSet.file_in_exactly_one_set",
    "Verif.FileSet.classify_lt"
   ],
   "note": ""
  },
  {
   "property": "C17",
   "status": "proved",
   "theorems": [
    "Verif.FileSet.longest_root_wins",
    "Verif.FileSet.build_total"
   ],
   "note": ""
  },
  {
   "property": "C18",
   "status": "partial",
   "theorems": [
    "Verif.FileSet.sibling_is_captured",
    "Verif.FileSet.siblings_are_captured",
    "Verif.FileSet.sibling_is_outside",
    "Verif.FileSet.root_captures_inside_partial",
    "Verif.FileSet.inside_root_is_captured_partial"
   ],
   "note": "The code violates the property: the comparison is on bytes, so root /a captures /ab (sibling_is_captured). The partial theorems say when the assignment is right."
  },
  {
   "property": "C19",
   "status": "proved",
   "theorems": [
    "Verif.Paths.normalize_is_walk",
    "Verif.Paths.walk_unique",
    "Verif.Paths.normalize_canonical",
    "Verif.Paths.normalize_idempotent"
   ],
   "note": ""
  },
  {
   "property": "C20",
   "status": "proved",
   "theorems": [
    "Verif.Paths.join_goes_up",
    "Verif.Paths.relative_path_form",
    "Verif.Paths.join_root_climbs"
   ],
   "note": "For base paths written as a list of slash-free names; the root written as a single slash counts as one (empty) name, see join_root_climbs."
  },
  {
   "property": "C21",
   "status": "proved",
   "theorems": [
    "Verif.Loader.includes_iff_deepest",
    "Verif.Loader.contains_file_iff",
    "Verif.Loader.entry_contains",
    "Verif.Loader.contains_file_named",
    "Verif.Loader.extension_spec",
    "Verif.Loader.extension_none"
   ],
   "note": ""
  },
  {
   "property": "C22",
   "status": "proved",
   "theorems": [
    "Verif.Diagnostics.client_copy_is_exact",
    "Verif.Diagnostics.stored_diagnostics_spec",
    "Verif.Diagnostics.stored_fixes_spec",
    "Verif.Diagnostics.reported_only_if_touched"
   ],
   "note": ""
  },
  {
   "property": "C23",
   "status": "proved",
   "theorems": [
    "Verif.Pipeline.diagnostics_exist_iff",
    "Verif.Pipeline.diagnostics_are_errors",
    "Verif.Pipeline.diagnostics_bounded",
    "Verif.Pipeline.diagnostics_in_order",
    "Verif.Pipeline.converted"
   ],
   "note": "Positions are in bytes, see C60."
  },
  {
   "property": "C24",
   "status": "proved",
   "theorems": [
    "Verif.Server.every_request_gets_one_response",
    "Verif.Server.replies_follow_protocol"
   ],
   "note": ""
  },
  {
   "property": "C25",
   "status": "proved",
   "theorems": [
    "Verif.Server.after_shutdown_requests_are_invalid",
    "Verif.Server.after_shutdown_nothing_is_executed",
    "Verif.Server.exits_iff_exit_received",
    "Verif.Server.fails_iff_disconnected",
    "Verif.Server.replies_follow_protocol"
   ],
   "note": ""
  },
  {
   "property": "C26",
   "status": "partial",
   "theorems": [
    "Verif.Server.nothing_is_published",
    "Verif.Server.published_is_stored_partial",
    "Verif.Server.local_errors_are_published_partial"
   ],
   "note": "The code violates the property: every file belongs to a library root, so nothing is ever published (nothing_is_published). The partial theorems say what holds for a configuration with local roots."
  },
  {
   "property": "C27",
   "status": "proved",
   "theorems": [
    "Verif.Server.cancel_answers_pending",
    "Verif.Server.cancel_ignores_others",
    "Verif.Server.cancel_has_no_effect"
   ],
   "note": ""
  },
  {
   "property": "C28",
   "status": "partial",
   "theorems": [
    "Verif.Server.stored_diagnostics_converge_partial",
    "Verif.Server.stale_diagnostics_survive"
   ],
   "note": "The code violates the property for schedules that reorder results (stale_diagnostics_survive); proved for in-order delivery and documents on which the analysis does not panic."
  },
  {
   "property": "C29",
   "status": "proved",
   "theorems": [
    "Verif.Lexer.tokens_cover_text",
    "Verif.Lexer.bump_total",
    "Verif.Lexer.reads_to_end",
    "Verif.Lexer.reads_valid"
   ],
   "note": ""
  },
  {
   "property": "C30",
   "status": "proved",
   "theorems": [
    "Verif.Parser.parse_lossless",
    "Verif.Parser.parse_leaves"
   ],
   "note": ""
  },
  {
   "property": "C31",
   "status": "proved",
   "theorems": [
    "Verif.Parser.events_build_tree",
    "Verif.Parser.parse_kinds"
   ],
   "note": ""
  },
  {
   "property": "C32",
   "status": "proved",
   "theorems": [
    "Verif.Parser.parse_terminates",
    "Verif.Parser.parse_steps_linear",
    "Verif.Parser.parse_depth"
   ],
   "note": "Native stack depth is not modelled."
  },
  {
   "property": "C33",
   "status": "proved",
   "theorems": [
    "Verif.Parser.parse_errors"
   ],
   "note": ""
  },
  {
   "property": "C34",
   "status": "partial",
   "theorems": [
    "Verif.Parser.returns_tree_iff_partial",
    "Verif.Parser.lost_panics",
    "Verif.Parser.not_lost_parses",
    "Verif.Parser.parse_panics_partial",
    "Verif.Parser.parse_carriage_return",
    "Verif.Parser.parse_address_fun",
    "Verif.Parser.parse_stray_token"
   ],
   "note": "The code violates the property. Proved: a text of at most 907 tokens is parsed exactly if it consists of tokens and no loop of the grammar stands at a token of a given table (a token that starts no item; `{` among fields; `)` in a block; `;` between parentheses); texts of any length that do get there make it panic; every panic is one of three."
  },
  {
   "property": "C35",
   "status": "proved",
   "theorems": [
    "Verif.Parser.chain_grouped",
    "Verif.Parser.parse_operators",
    "Verif.Parser.parse_operators_short"
   ],
   "note": "Operator chains of the binary operators the parser knows, over name and number atoms, in a whole script. The alternative in parse_operators is the panic of a file that is too long (C57)."
  },
  {
   "property": "C36",
   "status": "proved",
   "theorems": [
    "Verif.TokenSet.contains_new",
    "Verif.TokenSet.contains_union",
    "Verif.TokenSet.contains_empty",
    "Verif.TokenSet.mask_disjoint",
    "Verif.TokenSet.new_fits"
   ],
   "note": ""
  },
  {
   "property": "C37",
   "status": "proved",
   "theorems": [
    "Verif.Kind.toNat_inj",
    "Verif.Kind.ofNat_toNat",
    "Verif.Kind.ofNat_eq_some_iff",
    "Verif.Kind.ofNat_eq_none_iff",
    "Verif.Kind.toNat_fits"
   ],
   "note": ""
  },
  {
   "property": "C38",
   "status": "proved",
   "theorems": [
    "Verif.Lexer.word_token",
    "Verif.Lexer.word_is_keyword_or_identifier",
    "Verif.Lexer.keyword_table"
   ],
   "note": ""
  },
  {
   "property": "C39",
   "status": "partial",
   "theorems": [
    "Verif.Lexer.trivia_is_insignificant_partial",
    "Verif.Kind.isTrivia_iff",
    "Verif.Lexer.whitespace_token",
    "Verif.Lexer.comment_token",
    "Verif.Lexer.comment_token_at_end",
    "Verif.Lexer.byte_string_counts_chars",
    "Verif.Lexer.trivia_changes_non_ascii_byte_string"
   ],
   "note": "Token level: trivia can be replaced without changing the other tokens, provided byte strings before it are ASCII; without that the code violates the property (trivia_changes_non_ascii_byte_string)."
  },
  {
   "property": "C40",
   "status": "proved",
   "theorems": [
    "Verif.TestUtils.cursor_round_trip",
    "Verif.TestUtils.extract_offset_iff",
    "Verif.TestUtils.extract_offset_panics_iff",
    "Verif.TestUtils.range_round_trip",
    "Verif.TestUtils.offset_round_trip",
    "Verif.TestUtils.removal_makes_marker"
   ],
   "note": "Beyond marker-free texts: removing a marker can form a new one, which makes range extraction panic (removal_makes_marker)."
  },
  {
   "property": "C41",
   "status": "proved",
   "theorems": [
    "Verif.Disjoint.disjoint_iff_pairwise_apart"
   ],
   "note": "For ranges whose end is not before their start."
  },
  {
   "property": "C42",
   "status": "proved",
   "theorems": [
    "Verif.Project.discovers_nearest",
    "Verif.Project.discovers_children",
    "Verif.Project.nearest_or_none",
    "Verif.Project.manifest_itself",
    "Verif.Project.single_iff",
    "Verif.Project.manifest_file_iff",
    "Verif.Project.discover_all_spec",
    "Verif.Project.discover_all_deterministic",
    "Verif.Project.parent_component_finds_child"
   ],
   "note": "Ancestors are prefixes of the path; for a path with .. these are not its ancestors (parent_component_finds_child)."
  },
  {
   "property": "C43",
   "status": "proved",
   "theorems": [
    "Verif.Stdx.output_delivered_by_line",
    "Verif.Stdx.complete_lines_delivered",
    "Verif.Stdx.open_pipes_are_polled",
    "Verif.Stdx.loop_can_end"
   ],
   "note": ""
  },
  {
   "property": "C44",
   "status": "proved",
   "theorems": [
    "Verif.OpQueue.starts_iff",
    "Verif.OpQueue.no_two_operations",
    "Verif.OpQueue.completed_panics_iff",
    "Verif.OpQueue.last_result"
   ],
   "note": ""
  },
  {
   "property": "C45",
   "status": "proved",
   "theorems": [
    "Verif.Db.roots_are_local_or_library",
    "Verif.Db.text_is_last_set",
    "Verif.Db.applyChange_total"
   ],
   "note": ""
  },
  {
   "property": "C46",
   "status": "proved",
   "theorems": [
    "Verif.Editor.one_client_per_folder",
    "Verif.Editor.one_client_per_activation"
   ],
   "note": "Across reloads see C62."
  },
  {
   "property": "C47",
   "status": "proved",
   "theorems": [
    "Verif.Editor.Download.dest_untouched_or_complete",
    "Verif.Editor.Download.destinations_untouched_or_complete",
    "Verif.Editor.Download.refused_download_changes_nothing",
    "Verif.Editor.Download.used_binary_is_complete",
    "Verif.Editor.Download.reliable_destinations",
    "Verif.Editor.Download.reliable_honest",
    "Verif.Editor.Download.download_outcomes",
    "Verif.Editor.Download.jobs_are_started",
    "Verif.Editor.Download.stored_was_ok",
    "Verif.Editor.Token.obtained_was_written",
    "Verif.Editor.Download.existing_binary_is_complete",
    "Verif.Editor.Download.temp_ne_dest",
    "Verif.Editor.Download.received_is_installed",
    "Verif.Editor.Download.failed_download_leaves_temp"
   ],
   "note": "Contract of the network: a stream that ends without error has delivered the whole body; the code does not compare the length (received_is_installed)."
  },
  {
   "property": "C48",
   "status": "proved",
   "theorems": [
    "Verif.PanicContext.contexts_of_panics",
    "Verif.PanicContext.out_of_order_drop"
   ],
   "note": ""
  },
  {
   "property": "C49",
   "status": "partial",
   "theorems": [
    "Verif.AstGen.deduplicate_keeps_first",
    "Verif.AstGen.unique_fields_partial",
    "Verif.AstGen.unique_fields_fails",
    "Verif.AstGen.not_unique_fields",
    "Verif.AstGen.unique_names_fails"
   ],
   "note": "The code violates the property for grammars in which a class uses a choice and its alternatives. Proved: deduplication for all grammars, and unique fields for grammars without such classes, among them the one of the repository."
  },
  {
   "property": "C50",
   "status": "partial",
   "theorems": [
    "Verif.Stdx.snake_case",
    "Verif.Stdx.pascal_case",
    "Verif.Stdx.snake_case_is_in_case",
    "Verif.Stdx.pascal_case_has_no_underscore",
    "Verif.Stdx.lower_snake_case_idempotent",
    "Verif.Stdx.upper_snake_case_not_idempotent",
    "Verif.Stdx.pascal_of_snake",
    "Verif.Stdx.snake_case_injective",
    "Verif.Stdx.snake_case_collides",
    "Verif.Stdx.replace_pieces",
    "Verif.Stdx.white_space",
    "Verif.Stdx.trim_indent_partial",
    "Verif.Stdx.trim_indent_panics_iff",
    "Verif.Stdx.trim_indent_one_byte",
    "Verif.Stdx.trim_indent_covers",
    "Verif.Stdx.trim_indent_panics"
   ],
   "note": "Case conversion is proved for all texts. Removing indentation is proved for every text it does not panic on, and it panics exactly if the smallest indentation, counted in bytes, ends inside a character of some line; never with one-byte white space."
  },
  {
   "property": "C51",
   "status": "proved",
   "theorems": [
    "Verif.Stdx.equal_range",
    "Verif.Stdx.equal_range_indices",
    "Verif.Stdx.iter_eq_by_iff"
   ],
   "note": ""
  },
  {
   "property": "C52",
   "status": "partial",
   "theorems": [
    "Verif.Project.reload_events_partial",
    "Verif.Project.refresh_iff",
    "Verif.Project.dove_manifest_ignored",
    "Verif.Project.move_file_ignored"
   ],
   "note": "The code violates the property: the manifests are those of cargo, no event on Dove.toml or a Move file reloads. Proved: the exact set of events that do."
  },
  {
   "property": "C53",
   "status": "proved",
   "theorems": [
    "Verif.Lexer.punctuation_longest_match"
   ],
   "note": ""
  },
  {
   "property": "C54",
   "status": "proved",
   "theorems": [
    "Verif.Lexer.decimal_literal",
    "Verif.Lexer.hex_literal"
   ],
   "note": ""
  },
  {
   "property": "C55",
   "status": "proved",
   "theorems": [
    "Verif.Paths.name_with_extension",
    "Verif.Paths.name_without_extension",
    "Verif.Paths.no_name_iff"
   ],
   "note": ""
  },
  {
   "property": "C56",
   "status": "proved",
   "theorems": [
    "Verif.Parser.parse_valid",
    "Verif.Parser.derives_unique"
   ],
   "note": "The grammar is the relation Derives of Verif.Parser.Language; Spaced says which token pairs need a space. The alternative in parse_valid is the panic of a file that is too long (C57)."
  },
  {
   "property": "C57",
   "status": "partial",
   "theorems": [
    "Verif.Parser.parse_valid_partial",
    "Verif.Parser.parse_long_panics",
    "Verif.Parser.parse_modules_panics"
   ],
   "note": "The code violates the property: the parser gives up after 10000 lookups in the whole file, not per token, so every valid file with more than 10001 identifiers panics. Proved: valid files with at most 999 significant tokens are parsed."
  },
  {
   "property": "C58",
   "status": "partial",
   "theorems": [
    "Verif.Parser.parse_reformatted_anywhere_partial",
    "Verif.Parser.parse_reformatted_partial",
    "Verif.Parser.parse_reformatted_places_partial",
    "Verif.Parser.laidOut_exists",
    "Verif.Parser.parse_layout_partial",
    "Verif.Parser.space_changes_tree",
    "Verif.Parser.space_changes_product",
    "Verif.Parser.comment_changes_tree",
    "Verif.Parser.comment_before_brace",
    "Verif.Parser.comment_before_colon"
   ],
   "note": "The code violates the property in a few places: a comment in front of certain braces and colons, and trivia behind :: in front of * or { . Proved for all texts, valid or not: everywhere else whitespace and comments can be inserted, changed and removed without changing the tree or the messages, and every error stays at the end of the same token or in front of the next one. Each exception has a witness. If the text begins otherwise than before (with whitespace, a comment, a token) the number of lookups changes, and the claim is up to one of the texts running out of them."
  },
  {
   "property": "C59",
   "status": "partial",
   "theorems": [
    "Verif.Pipeline.documents_are_independent_partial",
    "Verif.Pipeline.panicking_document_hides_others"
   ],
   "note": "The code violates the property: the worker that panics on one document sends nothing for the others. Proved: without panicking documents each open document gets its own diagnostics."
  },
  {
   "property": "C60",
   "status": "partial",
   "theorems": [
    "Verif.Pipeline.positions_agree_partial",
    "Verif.Pipeline.diagnostic_position_agrees_iff",
    "Verif.Pipeline.diagnostic_position_disagrees",
    "Verif.Pipeline.change_position_disagrees"
   ],
   "note": "The code violates the property: diagnostics are always in UTF-8 and changes are always read in UTF-16, whatever was announced. Proved: the exact condition under which they agree."
  },
  {
   "property": "C61",
   "status": "partial",
   "theorems": [
    "Verif.Server.published_versions_are_current_partial",
    "Verif.Server.published_diagnostics_are_outdated"
   ],
   "note": "The code violates the property: diagnostics of an older text are published with the current version. Proved: the version is always the current one."
  },
  {
   "property": "C62",
   "status": "partial",
   "theorems": [
    "Verif.Editor.one_running_client_partial",
    "Verif.Editor.reload_leaves_two_clients"
   ],
   "note": "The code violates the property: a call that is pending during a reload starts a client nobody stops. Proved: for reloads without pending calls."
  },
  {
   "property": "C63",
   "status": "partial",
   "theorems": [
    "Verif.Editor.start_is_repeated_partial",
    "Verif.Editor.failed_start_is_final",
    "Verif.Editor.failed_start_reachable"
   ],
   "note": "The code violates the property: when the metadata cannot be read the folder keeps its entry and no later event of the activation starts a client. Proved: starts that fail earlier are repeated."
  },
  {
   "property": "C64",
   "status": "partial",
   "theorems": [
    "Verif.AstGen.lower_panics_iff",
    "Verif.AstGen.lower_classes",
    "Verif.AstGen.constituents_covered_partial",
    "Verif.AstGen.accessors_from_constituents",
    "Verif.AstGen.merge_loses_repetition",
    "Verif.AstGen.merge_loses_label",
    "Verif.AstGen.trait_loses_accessor",
    "Verif.AstGen.move_classes",
    "Verif.AstGen.token_accessors",
    "Verif.AstGen.node_accessors"
   ],
   "note": "The code violates the property: merging into a choice loses repetitions and labels, and fields moved to a trait get no accessor. Proved: when the generator panics, which classes it makes, that every constituent is an accessor, merged, or moved to a trait, and that no accessor is invented."
  },
  {
   "property": "C65",
   "status": "proved",
   "theorems": [
    "Verif.Ast.views",
    "Verif.Ast.expr_cast_iff",
    "Verif.Ast.tree_of_parse",
    "Verif.Ast.ok_of_parse",
    "Verif.Ast.parse_cast"
   ],
   "note": ""
  },
  {
   "property": "C66",
   "status": "partial",
   "theorems": [
    "Verif.Ast.children_spec",
    "Verif.Ast.child_spec",
    "Verif.Ast.token_spec",
    "Verif.Ast.nodes_stand",
    "Verif.Ast.children_below",
    "Verif.Ast.lhs_first_partial",
    "Verif.Ast.operands_found_partial",
    "Verif.Ast.rhs_is_lhs",
    "Verif.Ast.rhs_wrong",
    "Verif.Ast.operands_without_view",
    "Verif.Ast.script_functions_missing"
   ],
   "note": "The code violates the property: rhs is lhs, names are no expressions, and the functions of a script are not found. Proved: what the accessors yield, for error-free files also in terms of the operands of the source, and that nodes stand in the text where their offsets say."
  },
  {
   "property": "C67",
   "status": "proved",
   "theorems": [
    "Verif.AstGen.fromKeyword_iff",
    "Verif.AstGen.fromChar_iff",
    "Verif.AstGen.groups_iff",
    "Verif.AstGen.groups_disjoint",
    "Verif.AstGen.committed_variants",
    "Verif.AstGen.committed_fromKeyword",
    "Verif.AstGen.keyword_iff"
   ],
   "note": ""
  },
  {
   "property": "C68",
   "status": "partial",
   "theorems": [
    "Verif.Parser.accepted_is_lenient_partial",
    "Verif.Parser.accepted_is_not_a_file",
    "Verif.Parser.file_opens"
   ],
   "note": "The code violates the property: `module M;` and other texts that are no files pass without an error. Proved: every text that passes is a file of the lenient grammar in Lenient.lean, which adds eleven rules to the grammar of Language.lean, and its tree is the one of that grammar."
  },
  {
   "property": "C69",
   "status": "proved",
   "theorems": [
    "Verif.Parser.accepted_is_nested",
    "Verif.Parser.derives_nested",
    "Verif.Parser.rule_nested"
   ],
   "note": ""
  },
  {
   "property": "C70",
   "status": "proved",
   "theorems": [
    "Verif.TestUtils.annotations_denote",
    "Verif.TestUtils.annotation_ranges",
    "Verif.Stdx.trim_iff",
    "Verif.TestUtils.third_line_panics"
   ],
   "note": "The documentation speaks of multi-line values; a value of three lines is a panic (third_line_panics)."
  },
  {
   "property": "C71",
   "status": "proved",
   "theorems": [
    "Verif.TestUtils.tags_extracted",
    "Verif.Stdx.trim_iff",
    "Verif.TestUtils.stray_close_panics",
    "Verif.TestUtils.unclosed_panics"
   ],
   "note": "A tag whose name merely begins with the given name counts as that tag, so the theorems exclude it from the text between tags."
  },
  {
   "property": "C72",
   "status": "partial",
   "theorems": [
    "Verif.TestUtils.fixture_metadata_checked_partial",
    "Verif.TestUtils.fixture_database_partial",
    "Verif.TestUtils.no_fixture_has_a_file",
    "Verif.TestUtils.every_single_file_fixture_panics"
   ],
   "note": "The code violates the property: the branch that makes files of metadata lines is commented out, so no fixture has a file. Proved: malformed metadata is refused, and only that; and for arbitrary entries the database made of them has their files, marked position and source roots."
  },
  {
   "property": "C73",
   "status": "proved",
   "theorems": [
    "Verif.Project.Startup.starts_iff",
    "Verif.Project.Startup.searches_folders",
    "Verif.Project.Startup.announces_offered",
    "Verif.Project.Startup.registers_if_able",
    "Verif.Project.Startup.watches_if_able"
   ],
   "note": "What is announced is not what is used later: see C60."
  },
  {
   "property": "C74",
   "status": "partial",
   "theorems": [
    "Verif.Editor.Bootstrap.platform_asset_partial",
    "Verif.Editor.Bootstrap.setting_wins",
    "Verif.Editor.Bootstrap.unknown_platform",
    "Verif.Editor.Bootstrap.no_asset",
    "Verif.Editor.Bootstrap.dove_is_valid",
    "Verif.Editor.Bootstrap.windows_gets_macos",
    "Verif.Editor.Bootstrap.server_path_ignores_settings"
   ],
   "note": "The code violates the property: on Windows an asset for macOS matches, because darwin contains win, and the path of the language server is a constant that ignores the settings. Proved for the other platforms, and for Windows if no macOS asset is listed before."
  },
  {
   "property": "C75",
   "status": "proved",
   "theorems": [
    "Verif.Editor.Bootstrap.retry_until"
   ],
   "note": ""
  },
  {
   "property": "C76",
   "status": "partial",
   "theorems": [
    "Verif.Server.closed_documents_are_left_alone_partial",
    "Verif.Server.closed_documents_keep_errors"
   ],
   "note": "The code violates the property: nothing is sent for a document after it was closed. Proved instead: once the work in progress is received nothing at all happens to the diagnostics of a closed document, so they are empty exactly if the last ones sent were."
  },
  {
   "property": "C77",
   "status": "partial",
   "theorems": [
    "Verif.Server.crashes_exactly",
    "Verif.Server.impossible_iff",
    "Verif.Edits.changes_exactly",
    "Verif.Edits.reversed_range_crashes",
    "Verif.Server.bad_messages_end_the_server"
   ],
   "note": "The code violates the property: some messages end the server. Proved: exactly which. The specification of impossible changes covers ranges that do not end on an earlier line than they start on; those that do end the server if they end within a line, wherever they come in the notification. What is left are ranges that end on an earlier line and behind its end, as a change that is not the first of its notification."
  },
  {
   "property": "C78",
   "status": "partial",
   "theorems": [
    "Verif.Edits.positions_within_lines_partial",
    "Verif.Edits.ranged_change_exactly",
    "Verif.Edits.overlong_column_reaches_later_lines",
    "Verif.Edits.overlong_column_is_wrong",
    "Verif.Edits.overlong_column_crashes"
   ],
   "note": "The code violates the property: a column past the end of a line is read as that many bytes after the line. Proved for positions within lines, and exactly what happens for all others."
  },
  {
   "property": "C79",
   "status": "partial",
   "theorems": [
    "Verif.AstGen.choice_traits",
    "Verif.AstGen.class_traits",
    "Verif.AstGen.class_traits_sound_partial",
    "Verif.AstGen.trait_without_method"
   ],
   "note": "The code violates the property: only the number of accessors is compared with the number of methods, so that a class can get a trait whose methods it does not have. Proved for choices without restriction; for classes whose constituents have accessors with different names and mention no alternative of a choice."
  },
  {
   "property": "C80",
   "status": "partial",
   "theorems": [
    "Verif.Lexer.token_spelled",
    "Verif.Lexer.spelled_token",
    "Verif.Lexer.spelled_unique",
    "Verif.Ast.leaves_spelled",
    "Verif.Ast.tokens_spelled",
    "Verif.Ast.accessor_texts",
    "Verif.Ast.ident_token_is_name",
    "Verif.Lexer.byte_string_cut",
    "Verif.Lexer.number_without_digits"
   ],
   "note": "The code violates the property for byte strings with characters outside ASCII, which end before their closing quote. Everything else is proved without restriction."
  },
  {
   "property": "C81",
   "status": "proved",
   "theorems": [
    "Verif.Editor.Activate.registered_once",
    "Verif.Editor.Activate.registered_exactly"
   ],
   "note": "For all histories of events, checks, reloads and outcomes of activations, in any order."
  },
  {
   "property": "C82",
   "status": "partial",
   "theorems": [
    "Verif.Editor.Activate.changes_ask",
    "Verif.Editor.Activate.only_changes_ask",
    "Verif.Editor.Activate.reload_iff_partial",
    "Verif.Editor.Activate.failed_forever",
    "Verif.Editor.Activate.change_lost"
   ],
   "note": "The code violates the property: after a failed activation nothing reloads the extension, and a reload asked for during an activation is lost. Proved: while active, each change asks for a reload, and a call is followed by a new activation exactly if the extension is active when it arrives."
  },
  {
   "property": "C83",
   "status": "proved",
   "theorems": [
    "Verif.Ast.error_nodes_reported"
   ],
   "note": "For all texts and all nodes."
  },
  {
   "property": "C84",
   "status": "proved",
   "theorems": [
    "Verif.Ast.nodes_follow_grammar",
    "Verif.Ast.no_error_nodes"
   ],
   "note": "For all texts without errors. The rules are those of the language and the liberties the parser takes, which are listed in Lenient.lean (C68)."
  },
  {
   "property": "C85",
   "status": "partial",
   "theorems": [
    "Verif.Ast.function_parts_never_found",
    "Verif.Ast.script_parts_never_found",
    "Verif.Ast.fun_token_found_partial",
    "Verif.Ast.operator_found_partial",
    "Verif.Ast.stmt_expr_found_partial",
    "Verif.Ast.literal_tokens_found_partial"
   ],
   "note": "The code violates the property: in every file without errors the accessors for the name, parentheses, braces and statements of functions and for the braces and functions of scripts find nothing. Proved for the keyword of functions, the operators + - * / %, the expression of a statement if it is a binary expression or a literal, and the tokens of literals."
  },
  {
   "property": "C86",
   "status": "partial",
   "theorems": [
    "Verif.Parser.before_first_error_partial",
    "Verif.Parser.first_error_not_late_partial",
    "Verif.Parser.first_error_late"
   ],
   "note": "For all texts the parser returns for. What stands before the first error is the beginning of a file of the lenient language (the language and what the parser lets pass, C68); with the language itself the property fails, because an earlier liberty is not reported."
  },
  {
   "property": "C87",
   "status": "proved",
   "theorems": [
    "Verif.Parser.wrong_bracket_reported",
    "Verif.Parser.brackets_fit_before_error"
   ],
   "note": "For all texts the parser returns for, braces and parentheses."
  },
  {
   "property": "C88",
   "status": "proved",
   "theorems": [
    "Verif.Server.Threads.handling_ends",
    "Verif.Server.Threads.never_stuck",
    "Verif.Server.Threads.quiet_takes_events",
    "Verif.Server.Threads.given_work_is_done"
   ],
   "note": "For all schedules, events, pool sizes and costs of queries, also with panicking workers. Threads are reduced to the order in which they take locks, wait and give work to others; fairness of the scheduler is not needed for the bound, only that some thread that can run does."
  },
  {
   "property": "C89",
   "status": "proved",
   "theorems": [
    "Verif.Server.Threads.writer_alone",
    "Verif.Server.Threads.no_reader_beside_writer",
    "Verif.Server.Threads.no_entry_beside_writer",
    "Verif.Server.Threads.stopped_server_ends",
    "Verif.Server.Threads.no_result_lost",
    "Verif.Server.Threads.ended_quiet",
    "Verif.Server.Threads.only_changes_cancel"
   ],
   "note": "For all schedules, also when the main loop panics within an event."
  },
  {
   "property": "C90",
   "status": "proved",
   "theorems": [
    "Verif.Server.requests_sent",
    "Verif.Server.response_accepted_iff"
   ],
   "note": "For all histories, also of clients that do not conform. Ids of requests are numbers."
  },
  {
   "property": "C91",
   "status": "partial",
   "theorems": [
    "Verif.Editor.active_is_known",
    "Verif.Editor.last_document_active_partial",
    "Verif.Editor.earlier_document_active"
   ],
   "note": "The code violates the property when the start of an earlier folder ends later. Proved: the active workspace always is one the factory has, and the property when nothing happens between the event and the end of its call."
  },
  {
   "property": "C92",
   "status": "partial",
   "theorems": [
    "Verif.Paths.resolve_real_partial",
    "Verif.Paths.resolve_inserted_partial",
    "Verif.Paths.resolve_virtual_partial",
    "Verif.Paths.resolve_unknown_panics",
    "Verif.Paths.resolve_virtual_misses"
   ],
   "note": "The code violates the property: for a file that is not in the set the program panics instead of returning None, and for in-memory files only a leading .. is resolved. Proved for all paths relative to files of the file system, and for in-memory files for paths of the form ../../a/b."
  },
  {
   "property": "C93",
   "status": "proved",
   "theorems": [
    "Verif.Server.Dispatch.answered_once",
    "Verif.Server.Dispatch.dispatch_answers",
    "Verif.Server.Dispatch.answer_unique"
   ],
   "note": "The answers to the requests of a client, for arbitrary routes and handlers."
  },
  {
   "property": "C94",
   "status": "partial",
   "theorems": [
    "Verif.Editor.Dove.output_read_partial",
    "Verif.Editor.Dove.ascii_output_read",
    "Verif.Editor.Dove.cut_character_lost",
    "Verif.Editor.Dove.waits_iff",
    "Verif.Editor.Dove.metadata_of_output",
    "Verif.Editor.Dove.exit_code_ignored",
    "Verif.Editor.Dove.folders_told",
    "Verif.Stdx.lossy_text"
   ],
   "note": "The code violates the property: each piece of output is decoded on its own, so a character cut between two pieces is lost, and the exit code is ignored, so output of a failing command is parsed. Proved for every cut of ASCII output and every cut between characters."
  },
  {
   "property": "C95",
   "status": "proved",
   "theorems": [
    "Verif.AstGen.cast_iff",
    "Verif.AstGen.cast_choice",
    "Verif.AstGen.access_many",
    "Verif.AstGen.access_one",
    "Verif.AstGen.access_token",
    "Verif.AstGen.macro_kind",
    "Verif.AstGen.macro_arms_exist",
    "Verif.AstGen.token_classes",
    "Verif.AstGen.committed_nodes",
    "Verif.AstGen.stmt_missing",
    "Verif.AstGen.shebang_missing"
   ],
   "note": "For every grammar with distinct names and every tree. A choice named Stmt gets no cast, so accessors of that type do not compile, and the macro has an arm for a kind that does not exist: both proved as findings. The accessor theorems need distinct accessor names, see C49 for when the generator gives them."
  },
  {
   "property": "C96",
   "status": "partial",
   "theorems": [
    "Verif.Editor.Selector.selects_iff_partial",
    "Verif.Editor.Selector.one_server_partial",
    "Verif.Editor.Selector.starter_selected_partial",
    "Verif.Editor.Selector.selects_pattern_partial",
    "Verif.Editor.Selector.own_files_without_brackets",
    "Verif.Editor.Selector.brackets_miss_their_files",
    "Verif.Editor.Selector.question_mark_gets_siblings",
    "Verif.Editor.Selector.nested_twice",
    "Verif.Editor.Selector.root_selects_none",
    "Verif.Editor.Selector.special_characters"
   ],
   "note": "The code violates the property: the path of the folder is used as a pattern, so a folder with *, ?, brackets or braces in its path misses its own files or gets those of others (what it gets is characterised for paths with *, ? and pairs of brackets); with the root of the file system as folder no file is sent; a file of a nested folder is sent to both servers. Proved for all plain paths and folders that are not nested. The pattern matcher of the editor is external and modelled from its source."
  },
  {
   "property": "C97",
   "status": "proved",
   "theorems": [
    "Verif.Paths.Windows.same_key",
    "Verif.Paths.Windows.virtual_key",
    "Verif.Paths.Windows.under_prefix",
    "Verif.Paths.Windows.prefix_under",
    "Verif.Paths.Windows.prefix_iff",
    "Verif.Paths.Windows.windows_sibling_captured"
   ],
   "note": "For all prefixes that std::path produces and all names. That siblings are captured, which the statement admits, violates C18 on Windows as well; shown on a witness."
  },
  {
   "property": "C98",
   "status": "proved",
   "theorems": [
    "Verif.Parser.parse_behind_valid",
    "Verif.Parser.parse_behind_valid_token",
    "Verif.Parser.parse_behind_long"
   ],
   "note": "The positions of the errors are not compared, only their messages and order. The exception for running out of lookups is needed: a long valid file in front uses them up."
  },
  {
   "property": "C99",
   "status": "proved",
   "theorems": [
    "Verif.Parser.errors_say_what_is_missing",
    "Verif.Parser.each_message_is_reported"
   ],
   "note": "For all texts for which the parser returns, and all errors. The list of messages with the tokens they ask for is Missing.table."
  },
  {
   "property": "C100",
   "status": "partial",
   "theorems": [
    "Verif.Urls.published_uri_leads_back",
    "Verif.Urls.files_have_different_uris",
    "Verif.Urls.published_under_opened_uri_iff_partial",
    "Verif.Urls.documents_kept_apart_partial",
    "Verif.Urls.uri_names_file",
    "Verif.Urls.stands_exactly",
    "Verif.Urls.refused_iff",
    "Verif.Urls.reading_never_panics",
    "Verif.Urls.drive_in_lower_case",
    "Verif.Urls.drive_uri_is_spelled",
    "Verif.Urls.drive_uri_leads_back",
    "Verif.Urls.drive_case_is_forgotten",
    "Verif.Urls.drive_alone_panics",
    "Verif.Urls.published_under_other_uri",
    "Verif.Urls.other_scheme_is_taken_for_file"
   ],
   "note": "Partial because the code violates the property: it holds exactly for URIs in the one spelling the server uses (an equivalence is proved). Other spellings, other schemes and, on Windows, a URI that is only a drive are counterexamples. Url::parse is not modelled."
  },
  {
   "property": "C101",
   "status": "proved",
   "theorems": [
    "Verif.Server.announced_synchronisation",
    "Verif.Server.announced_messages",
    "Verif.Server.announced_history",
    "Verif.Server.incremental_clients_can_end_the_server"
   ],
   "note": "For all histories and schedules. What is asked of the client is that it sends whole texts, as announced, readable messages, and at most one answer to the one request of the server."
  },
  {
   "property": "C102",
   "status": "partial",
   "theorems": [
    "Verif.Editor.Progress.progress_is_true_partial",
    "Verif.Editor.Progress.progress_completes_partial",
    "Verif.Editor.Progress.bad_length_fails",
    "Verif.Editor.Progress.no_length_shows_infinity",
    "Verif.Editor.Progress.compressed_response_passes_100",
    "Verif.Editor.Progress.longer_response_passes_100",
    "Verif.Editor.Progress.exactly_contract"
   ],
   "note": "The code violates the property for responses without length and for compressed ones. Proved for all other responses and all ways of cutting them into pieces; the floating point computation of the percentage is a parameter with a contract."
  },
  {
   "property": "C103",
   "status": "proved",
   "theorems": [
    "Verif.Paths.Abs.join_leads_along",
    "Verif.Paths.Abs.parent_leads_along",
    "Verif.Paths.Abs.pop_leads_along",
    "Verif.Paths.Abs.strip_leads_along",
    "Verif.Paths.Abs.ends_along",
    "Verif.Paths.Abs.strip_join",
    "Verif.Paths.Abs.parent_join",
    "Verif.Paths.Abs.manifest_has_directory",
    "Verif.Paths.Abs.normalize_absolute"
   ],
   "note": "On unix. The operations of std::path the wrappers call are modelled from their documentation."
  },
  {
   "property": "C104",
   "status": "proved",
   "theorems": [
    "Verif.Lexer.Lines.tokens_line_by_line",
    "Verif.Lexer.Lines.lexes_iff_lines",
    "Verif.Lexer.Lines.edit_keeps_other_lines",
    "Verif.Lexer.Lines.within_a_line"
   ],
   "note": "For the tokens other than whitespace and comments, with their byte offsets. Whitespace runs over several lines, and a comment token includes its newline; within a line the property is false (within_a_line)."
  },
  {
   "property": "C105",
   "status": "partial",
   "theorems": [
    "Verif.Editor.Comments.commented_lines_are_invisible",
    "Verif.Editor.Comments.commenting_out_is_removing",
    "Verif.Editor.Comments.block_comment_is_seen",
    "Verif.Editor.Comments.leading_block_comment_panics",
    "Verif.Editor.Comments.block_comment_behind_definitions_panics",
    "Verif.Editor.Comments.block_comment_in_function"
   ],
   "note": "Proved for line comments. For block comments, which the extension declares, the code violates the property: the lexer has none, so their contents are read as tokens, and a file that has one in front of or between its definitions makes the parser panic. The tokens are the same as without the commented lines; that the tree is the same up to trivia is C58, with its exceptions."
  },
  {
   "property": "C106",
   "status": "proved",
   "theorems": [
    "Verif.Parser.errors_in_front_unchanged",
    "Verif.Parser.lines_below_change_nothing"
   ],
   "note": "Messages and their order, and in front of which token they stand; not their offsets within the trivia between two tokens."
  },
  {
   "property": "C107",
   "status": "proved",
   "theorems": [
    "Verif.Parser.parse_renamed",
    "Verif.Parser.hexadecimal_matters"
   ],
   "note": "For all texts, valid or not. The exception for hexadecimal numbers is necessary (hexadecimal_matters). The hypothesis is about tokens: a new name may not be a keyword or run into its neighbours."
  },
  {
   "property": "C108",
   "status": "partial",
   "theorems": [
    "Verif.Build.version_is_right_partial",
    "Verif.Build.watches_repo_iff",
    "Verif.Build.checked_out",
    "Verif.Build.version_was_right_partial",
    "Verif.Build.given_version_is_reported",
    "Verif.Build.version_names_commit",
    "Verif.Build.watched_iff",
    "Verif.Build.commits_go_unnoticed",
    "Verif.Build.stale_after_commit",
    "Verif.Build.stale_channel",
    "Verif.Build.root_is_not_watched"
   ],
   "note": "The code violates the property: the script has cargo watch .git/HEAD, which a commit on a branch does not change, and does not name the variable for the channel, so a build after a commit reports the commit before (commits_go_unnoticed, for all histories, and witnesses). Proved for all histories: a given version is reported; the version was right at this build or an earlier one; it is right, up to the day and the channel, if between a commit on a branch and the next build something cargo notices happens."
  },
  {
   "property": "C109",
   "status": "partial",
   "theorems": [
    "Verif.Measure.line_is_accepted",
    "Verif.Measure.parabola_is_rejected",
    "Verif.Measure.test_rounds",
    "Verif.Measure.empty_round_panics",
    "Verif.Measure.unfinished_round_fails",
    "Verif.Measure.everything_is_accepted",
    "Verif.Measure.square_is_accepted",
    "Verif.Measure.doubling_is_accepted",
    "Verif.Measure.constants_rejected"
   ],
   "note": "The code violates the property: whatever is measured is accepted if a large enough constant is added (everything_is_accepted, for all measurements), and constant measurements of 0 are rejected. Proved for all measurements: those on a line are accepted exactly if the line is not too low at 0; squares at 1, 2, ..., n are rejected for all n and all factors; the number of rounds and the verdict. Over rationals: the rounding of f64 is not modelled."
  },
  {
   "property": "C110",
   "status": "partial",
   "theorems": [
    "Verif.Ast.token_views",
    "Verif.Ast.token_casts_partial",
    "Verif.Ast.no_hex_strings",
    "Verif.Ast.hex_string_is_byte_string"
   ],
   "note": "The code violates the property: the lexer makes x\"...\" a BYTE_STRING, so it is cast to ByteString and nothing is ever cast to HexString (no_hex_strings, for all files). Proved in full for the other classes."
  },
  {
   "property": "C111",
   "status": "partial",
   "theorems": [
    "Verif.Process.succeeds_iff",
    "Verif.Process.status_is",
    "Verif.Process.goes_on_iff",
    "Verif.Process.exit_after_shutdown_succeeds_partial",
    "Verif.Process.no_log_no_server",
    "Verif.Process.exit_without_shutdown_succeeds",
    "Verif.Process.status_tells_no_shutdown",
    "Verif.Process.failure_is_printed"
   ],
   "note": "The code violates the property: an exit notification without an earlier shutdown request also ends with status 0 (for all sessions), where the protocol asks for another status. Proved: exactly when the process succeeds, goes on and fails; the part after shutdown. The handshake and the threads of lsp_server are contracts."
  },
  {
   "property": "C112",
   "status": "partial",
   "theorems": [
    "Verif.Process.log_is_no_message",
    "Verif.Process.log_stands_where_asked",
    "Verif.Process.rust_log_is_not_read",
    "Verif.Process.extension_gets_errors_only",
    "Verif.Process.no_log_no_server",
    "Verif.Process.missing_project_is_logged"
   ],
   "note": "The code violates the part on what the extension asks for: it sets RUST_LOG, which is not read (rust_log_is_not_read, extension_gets_errors_only). Proved without restriction: the log never gets between the messages; where it stands. The filter of tracing_subscriber is a parameter."
  },
  {
   "property": "C113",
   "status": "partial",
   "theorems": [
    "Verif.Editor.Tasks.offered_task_does_what_it_says",
    "Verif.Editor.Tasks.tasks_of_folder_partial",
    "Verif.Editor.Tasks.written_task_runs_partial",
    "Verif.Editor.Tasks.written_task_runs_iff",
    "Verif.Editor.Tasks.arguments_are_never_run"
   ],
   "note": "The code violates the property: a task with arguments, as package.json declares them, can never be run (arguments_are_never_run, in all states), nor one for another command. Proved: exactly which can; what every offered task runs, and that each folder has its two tasks once, if no reload overtakes a call (C62). How an editor looks up a written task is a contract."
  },
  {
   "property": "C114",
   "status": "partial",
   "theorems": [
    "Verif.Stdx.Windows.windows_delivers_complete_lines",
    "Verif.Stdx.Windows.windows_delivers_all_partial",
    "Verif.Stdx.Windows.patient_delivers_all_partial",
    "Verif.Stdx.Windows.open_pipes_are_read",
    "Verif.Stdx.Windows.completion_makes_progress",
    "Verif.Stdx.Windows.unfinished_line_is_lost"
   ],
   "note": "The code violates the property: every output that ends with an unfinished line can lose that line without an error, if the command has closed the stream when the next read is started (unfinished_line_is_lost). Proved: nothing else is ever lost; nothing at all if the output ends with a newline or the end meets a read under way; a read is under way for each open stream and stays within the buffer. Completion ports are a contract."
  },
  {
   "property": "C115",
   "status": "partial",
   "theorems": [
    "Verif.Loader.Prepared.recursive_and_local_sets",
    "Verif.Loader.Prepared.dependency_set",
    "Verif.Loader.Prepared.dependency_keeps_tests",
    "Verif.Loader.Prepared.no_set_has_move_files"
   ],
   "note": "The code violates the property: the sets contain files with the extension rs only, so no Move file (no_set_has_move_files), and a dependency keeps its tests, examples and benches, because their names are joined as absolute paths (dependency_keeps_tests). Proved: exactly what each set contains."
  },
  {
   "property": "C116",
   "status": "proved",
   "theorems": [
    "Verif.AstGen.UpToDate.run_succeeds_iff",
    "Verif.AstGen.UpToDate.failed_run_updates_first",
    "Verif.AstGen.UpToDate.runs_needed",
    "Verif.AstGen.UpToDate.three_runs_suffice"
   ],
   "note": "Writing a file succeeds here; what is generated is a parameter."
  },
  {
   "property": "C117",
   "status": "partial",
   "theorems": [
    "Verif.Pipeline.same_text_shows_same_partial",
    "Verif.Pipeline.correct_file_shows_nothing_partial",
    "Verif.Pipeline.marks_stand_in_text_partial",
    "Verif.Pipeline.first_mark_not_late_partial",
    "Verif.Pipeline.wrong_bracket_is_marked_partial",
    "Verif.Pipeline.unclosed_bracket_is_marked_partial"
   ],
   "note": "Puts together the event loop, the documents, the parser and the positions. The restrictions are those of the parts, where the code violates the property: files of a local root (C26), results received in order (C28), no open document that makes the parser panic (C34, C59), correct files of at most 999 tokens (C57), columns in bytes (C60)."
  },
  {
   "property": "C118",
   "status": "proved",
   "theorems": [
    "Verif.Server.Threads.answers_are_fresh",
    "Verif.Server.Threads.computed_once",
    "Verif.Server.Threads.file_answered_or_given_up",
    "Verif.Server.Threads.change_waits_for_diagnostics",
    "Verif.Server.Threads.change_interrupts"
   ],
   "note": "For all schedules. That salsa drops what it knows at a change, keeps snapshots and writers apart and computes a query once is the contract of salsa; the transition system puts the threads of the server on top of it."
  },
  {
   "property": "C119",
   "status": "partial",
   "theorems": [
    "Verif.Server.Logged.messages_reach_their_handlers",
    "Verif.Server.Logged.understood_names",
    "Verif.Server.Logged.log_is_the_objections",
    "Verif.Server.Logged.log_is_the_objections_so_far",
    "Verif.Server.Logged.orderly_log_is_empty",
    "Verif.Server.Logged.log_hides_texts",
    "Verif.Server.Logged.saving_is_logged_as_error"
   ],
   "note": "Violated for reports of saved documents: the server registers for textDocument/didSave and has no handler, so every report it asked for is logged as an error (saving_is_logged_as_error). Everything else is proved in full. Records below the level error are not modelled."
  },
  {
   "property": "C120",
   "status": "partial",
   "theorems": [
    "Verif.Server.LogLines.one_line_each_partial",
    "Verif.Server.LogLines.lines_unique",
    "Verif.Server.LogLines.line_tells",
    "Verif.Server.LogLines.any_line_can_be_forged"
   ],
   "note": "The code violates the property: paths are written without escapes, so a path with a line break adds any line one likes to the log (any_line_can_be_forged). Proved for paths without line breaks, with any methods and parameters. That lsp_server and serde_json write their values with {:?} in one line is a contract (OneLine)."
  },
  {
   "property": "C121",
   "status": "partial",
   "theorems": [
    "Verif.Editor.Token.release_requests_have_the_token",
    "Verif.Editor.Token.token_only_to_github",
    "Verif.Editor.Token.token_is_not_seen",
    "Verif.Editor.Token.token_does_not_help_downloads"
   ],
   "note": "Violated for the download of the file itself: its dialog offers to enter a token, but the request is never made with one (token_does_not_help_downloads). The rest is proved in full, for the requests the extension makes; redirects are followed by node-fetch and are not modelled, and answers of GitHub are assumed not to repeat the token (Blind)."
  },
  {
   "property": "C122",
   "status": "proved",
   "theorems": [
    "Verif.Parser.tree_in_proportion",
    "Verif.Parser.tree_in_proportion_bytes",
    "Verif.Parser.tree_not_deeper"
   ],
   "note": "For texts the parser returns a tree for (C34). The bound is 36 nodes and errors per token and 55 more; it is not claimed to be sharp. The leaves are the tokens themselves (C30)."
  },
  {
   "property": "C123",
   "status": "partial",
   "theorems": [
    "Verif.Parser.node_starts_with_token",
    "Verif.Parser.node_last_child",
    "Verif.Parser.node_ends_with_token_partial",
    "Verif.Parser.nodes_end_with_token_partial",
    "Verif.Parser.node_ends_in_space",
    "Verif.Parser.node_ends_in_space_without_error"
   ],
   "note": "Violated at the end of a node that ends in an empty node: the space and the comments before the empty node are in the node around it (node_ends_in_space, and without any error node_ends_in_space_without_error). Proved for every node: its first token is significant and its last child is no whitespace or comment; for nodes that do not end in an empty node the last token is significant."
  },
  {
   "property": "C124",
   "status": "partial",
   "theorems": [
    "Verif.Editor.Trace.trace_follows_activation",
    "Verif.Editor.Trace.errors_always_written",
    "Verif.Editor.Trace.trace_changes_partial",
    "Verif.Editor.Trace.change_of_trace_lost",
    "Verif.Editor.Trace.trace_after_failure"
   ],
   "note": "Violated: a change of the setting while the extension is being activated is lost (change_of_trace_lost), and after a failed activation the setting has no effect at all, although the message of the failure asks for it (trace_after_failure). Proved in full: what is traced at any time, that other messages are always written, and that a change takes effect while the extension is active."
  }
 ]
}