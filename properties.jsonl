{"id": "C01", "title": "Offset/position round trip", "statement": "For every text and every byte offset inside it, converting the offset to a (line, column) position and back gives the same offset; no offset inside the text makes the conversion panic.", "quantifier": "all texts, all byte offsets from 0 to the text length", "why_tests_cant": "the domain is every pair of a text and an offset; a test samples a few short texts", "anchors": ["crates/ide_db/src/line_index.rs: LineIndex::new, LineIndex::line_col, LineIndex::offset"]}
{"id": "C02", "title": "Position of an offset is the editor's position", "statement": "The line of an offset is the number of newline characters before it, and its column is the number of bytes between the last preceding newline and the offset.", "quantifier": "all texts, all offsets at character boundaries", "why_tests_cant": "must hold for every arrangement of newlines and multi-byte characters", "anchors": ["crates/ide_db/src/line_index.rs: LineIndex::new, LineIndex::line_col"]}
{"id": "C03", "title": "UTF-8/UTF-16 column conversion", "statement": "On every line of every text, converting the UTF-8 column of a character boundary gives the number of UTF-16 code units before that boundary on the line, and converting back gives the original column.", "quantifier": "all texts, all character boundaries", "why_tests_cant": "mixes of 1-, 2-, 3- and 4-byte characters are unbounded; the reverse loop compares in a different unit than the forward loop", "anchors": ["crates/ide_db/src/line_index.rs: LineIndex::to_utf16, LineIndex::to_utf8, utf8_to_utf16_col, utf16_to_utf8_col, Utf16Char"]}
{"id": "C04", "title": "Position order is offset order", "statement": "For every text, an offset is before another exactly when its (line, column) position is lexicographically before the other's, so a converted range never comes out reversed.", "quantifier": "all texts, all pairs of offsets", "why_tests_cant": "quantifies over all pairs of offsets of all texts", "anchors": ["crates/ide_db/src/line_index.rs: LineIndex::line_col", "crates/move_language_server/src/to_proto.rs: position, range"]}
{"id": "C05", "title": "Splitting a range into lines loses nothing", "statement": "The per-line pieces of a text range are non-empty, contiguous, in order, their concatenation is exactly the range, and no piece crosses a newline boundary.", "quantifier": "all texts, all ranges inside the text", "why_tests_cant": "all ranges, including those that start or end exactly on a line break", "anchors": ["crates/ide_db/src/line_index.rs: LineIndex::lines"]}
{"id": "C06", "title": "Incremental document changes follow the LSP rules", "statement": "Applying a list of content changes gives the same text as applying each one, in order, with positions interpreted in the text produced by the previous ones; the reused line table never changes the result.", "quantifier": "all texts, all change lists whose ranges do not start on a later line than they end", "why_tests_cant": "the reused line table is wrong only for particular sequences of changes; sequences are unbounded", "anchors": ["crates/move_language_server/src/lsp_utils.rs: apply_document_changes, IndexValid", "crates/move_language_server/src/from_proto.rs: offset, text_range"]}
{"id": "C07", "title": "One change replaces exactly its range", "statement": "A ranged change whose start and end denote UTF-16 positions of characters keeps the text before the start and after the end byte for byte and puts the new text between them; a change without range replaces the document.", "quantifier": "all texts, all ranges denoting character boundaries, all replacement texts", "why_tests_cant": "the correctness depends on every combination of multi-byte characters and line breaks before the edit", "anchors": ["crates/move_language_server/src/lsp_utils.rs: apply_document_changes"]}
{"id": "C08", "title": "Document synchronisation", "statement": "After any history of open, change and close notifications, the text the analysis uses for every open document is the client's text with line endings normalised to a single newline character.", "quantifier": "all notification histories for any number of documents, valid according to the protocol", "why_tests_cant": "histories are unbounded and interleave many documents", "anchors": ["crates/move_language_server/src/main_loop.rs: on_notification, handle_event", "crates/move_language_server/src/global_state.rs: process_changes", "crates/base_db/src/change.rs: Change::apply"]}
{"id": "C09", "title": "The server does not crash on protocol-conforming documents traffic", "statement": "In every history of requests, responses to its own requests and document notifications with well-formed parameters and in-bounds edits, the event loop never panics: every open document is present in the file store, every known file has a source root and a recorded line-ending style.", "quantifier": "all histories of well-formed client messages and finished background tasks", "why_tests_cant": "panics hide in unwraps whose precondition is an invariant of the whole history", "anchors": ["crates/move_language_server/src/main_loop.rs: on_notification, update_diagnostics, handle_event", "crates/move_language_server/src/global_state.rs: process_changes, file_line_index"]}
{"id": "C10", "title": "Document versions", "statement": "After any history the recorded version of an open document is the version in the last open or change notification for it, and a document has a recorded version exactly when it is open.", "quantifier": "all notification histories", "why_tests_cant": "unbounded histories with duplicates and orphans", "anchors": ["crates/move_language_server/src/main_loop.rs: on_notification", "crates/move_language_server/src/mem_docs.rs: MemDocs"]}
{"id": "C11", "title": "Line-ending normalisation", "statement": "Normalising a text replaces every carriage-return+newline pair by a newline and changes nothing else; the reported style is DOS exactly when the text contained a carriage return.", "quantifier": "all texts", "why_tests_cant": "the in-place gap-moving loop has to be right for every placement of the pairs, including adjacent ones and a final lone carriage return", "anchors": ["crates/move_language_server/src/line_index.rs: LineEndings::normalize"]}
{"id": "C12", "title": "File ids are stable and never reused", "statement": "In every history of writes and deletions each path has at most one file id, two paths never share an id, and an id denotes the same path for ever, also after the file was deleted and created again.", "quantifier": "all histories of file store operations", "why_tests_cant": "uniqueness over unbounded histories", "anchors": ["crates/vfs/src/lib.rs: Vfs::set_file_contents, Vfs::alloc_file_id, Vfs::file_id, Vfs::file_path", "crates/vfs/src/path_interner.rs: PathInterner"]}
{"id": "C13", "title": "The file store returns the last write", "statement": "After any history the contents of a path are those of the last write to it, absent if the last operation deleted it or it was never written; writes to other paths have no influence.", "quantifier": "all histories, all paths", "why_tests_cant": "unbounded histories", "anchors": ["crates/vfs/src/lib.rs: Vfs::set_file_contents, Vfs::file_contents, Vfs::file_id"]}
{"id": "C14", "title": "The change log is complete and exact", "statement": "Replaying the drained change records on a consumer's copy, taking the contents from the store for files that exist, brings the copy from the state at the previous drain to the current state; set_file_contents reports a change exactly when it changed the store, and a second drain is empty.", "quantifier": "all histories of writes, deletions and drains", "why_tests_cant": "a lost change only shows for particular interleavings of writes and drains", "anchors": ["crates/vfs/src/lib.rs: Vfs::set_file_contents, Vfs::take_changes, Vfs::has_changes, ChangedFile"]}
{"id": "C15", "title": "Listing the file store", "statement": "Iteration yields every live file exactly once with its path and no deleted file, and a path has a visible file id exactly when its file is live.", "quantifier": "all histories", "why_tests_cant": "unbounded histories", "anchors": ["crates/vfs/src/lib.rs: Vfs::iter, Vfs::file_id, Vfs::exists, Vfs::len"]}
{"id": "C16", "title": "Every file belongs to exactly one file set", "statement": "Partitioning the store by a set configuration puts every live file in exactly one set and puts no other file anywhere; the number of sets is the number of configured sets plus one.", "quantifier": "all configurations, all stores", "why_tests_cant": "arbitrary overlapping roots and arbitrary stores", "anchors": ["crates/vfs/src/file_set.rs: FileSetConfig::partition, FileSetConfig::classify, FileSetConfigBuilder::build"]}
{"id": "C17", "title": "Longest matching root wins", "statement": "A file is classified to the set owning the longest configured root whose encoded path is a prefix of the file's encoded path (the first added set if a root was given twice), and to the extra last set when no root matches.", "quantifier": "all configurations, all paths", "why_tests_cant": "arbitrarily nested roots", "anchors": ["crates/vfs/src/file_set.rs: FileSetConfig::classify, FileSetConfigBuilder::build"]}
{"id": "C18", "title": "A root does not capture its sibling directories", "statement": "A file is assigned to a root's set only if the file lies inside the directory named by the root (component-wise prefix).", "quantifier": "all roots and file paths", "why_tests_cant": "a sibling whose name extends the root's name, such as root /a and file /ab/f, is needed to see the difference; tests use unrelated names", "anchors": ["crates/vfs/src/file_set.rs: FileSetConfig::classify", "crates/vfs/src/vfs_path.rs: VfsPath::encode"]}
{"id": "C19", "title": "Path normalisation", "statement": "Normalising an absolute path removes all `.` and `..` components, is idempotent, and denotes the same location as walking the components from the root.", "quantifier": "all absolute paths", "why_tests_cant": "paths are unbounded sequences of components", "anchors": ["crates/paths/src/lib.rs: normalize_path"]}
{"id": "C20", "title": "Joining virtual paths", "statement": "Joining a relative path with leading `../` segments to a virtual path goes up once per segment, fails exactly when it would climb above the root, and otherwise appends the remainder.", "quantifier": "all virtual paths and all relative paths", "why_tests_cant": "arbitrary numbers of `../`", "anchors": ["crates/vfs/src/vfs_path.rs: VirtualPath::join, VirtualPath::pop"]}
{"id": "C21", "title": "Watch filter: deepest include decides, excludes override", "statement": "A directory filter contains a file exactly when the extension is listed and the chosen include directory is an ancestor of the file with no exclusion directory below that include being an ancestor of the file; for nested includes the chosen include is the deepest.", "quantifier": "all filters and paths", "why_tests_cant": "arbitrary nesting of include and exclude directories", "anchors": ["crates/vfs/src/loader.rs: Directories::contains_file, Directories::includes_path"]}
{"id": "C22", "title": "Diagnostic change notifications are exact", "statement": "If a client always fetches the diagnostics of exactly the files reported as changed, then after every drain its copy equals the stored diagnostics of every file, for every interleaving of native updates, check updates and clears.", "quantifier": "all operation histories", "why_tests_cant": "a dropped or superfluous notification only shows in particular histories", "anchors": ["crates/move_language_server/src/diagnostics.rs: DiagnosticCollection"]}
{"id": "C23", "title": "Diagnostics are bounded and lie inside the file", "statement": "For every text at most 128 syntax diagnostics are produced, each with error severity and an empty range at an offset inside the text, in text order.", "quantifier": "all texts on which the parser returns", "why_tests_cant": "all texts", "anchors": ["crates/ide_diagnostics/src/lib.rs: diagnostics", "crates/syntax/src/parsing/text_tree_sink.rs: TextTreeSink::error"]}
{"id": "C24", "title": "Every request gets exactly one response", "statement": "In every history in which request ids are not reused while pending, each request received gets exactly one response, immediately, and no response is sent for an id that was not requested.", "quantifier": "all histories of messages", "why_tests_cant": "all interleavings of requests, cancellations and other messages", "anchors": ["crates/move_language_server/src/main_loop.rs: on_request", "crates/move_language_server/src/global_state.rs: register_request, respond, cancel", "crates/move_language_server/src/dispatch.rs: RequestDispatcher"]}
{"id": "C25", "title": "Shutdown and exit", "statement": "After a shutdown request was answered with success, every later request is answered with an InvalidRequest error and no other method is executed; the loop ends with success exactly when an exit notification is received and with an error when the connection closes before that.", "quantifier": "all histories", "why_tests_cant": "unbounded histories", "anchors": ["crates/move_language_server/src/main_loop.rs: run, on_request"]}
{"id": "C26", "title": "Syntax errors of open documents reach the client", "statement": "When an open document has syntax errors and all background work is finished, a publishDiagnostics notification with these errors has been sent for it.", "quantifier": "all histories", "why_tests_cant": "a liveness claim about whole histories", "anchors": ["crates/move_language_server/src/main_loop.rs: handle_event, update_diagnostics", "crates/move_language_server/src/reload.rs: SourceRootConfig::partition"]}
{"id": "C27", "title": "Cancellation", "statement": "A cancel notification answers a pending request with a cancellation error once and has no effect on ids that are not pending.", "quantifier": "all histories", "why_tests_cant": "interleavings", "anchors": ["crates/move_language_server/src/main_loop.rs: on_notification", "crates/move_language_server/src/global_state.rs: cancel"]}
{"id": "C28", "title": "Stored diagnostics converge to the last text", "statement": "When all background computations have finished and were received, the stored diagnostics of every open document are those of its current text, for every order in which the worker threads deliver their results.", "quantifier": "all histories and all delivery schedules", "why_tests_cant": "depends on thread schedules: a worker may be delayed between computing and sending", "anchors": ["crates/move_language_server/src/main_loop.rs: update_diagnostics, handle_event", "crates/move_language_server/src/thread_pool.rs: TaskPool::spawn"]}
{"id": "C29", "title": "Tokens cover the text", "statement": "The tokens recorded while the parser runs to the end of the input concatenate to the input text byte for byte, and every token except the end-of-input one is non-empty.", "quantifier": "all texts", "why_tests_cant": "all texts", "anchors": ["crates/parser/src/lexer.rs: Lexer, find_token"]}
{"id": "C30", "title": "The syntax tree is lossless", "statement": "Whenever parsing returns, the text of the syntax tree (the concatenation of its leaves) is exactly the input text.", "quantifier": "all texts on which the parser returns", "why_tests_cant": "all texts, including arbitrary garbage", "anchors": ["crates/syntax/src/parsing.rs: parse_text", "crates/syntax/src/parsing/text_tree_sink.rs: TextTreeSink", "crates/parser/src/event.rs: process", "crates/parser/src/grammar.rs: root"]}
{"id": "C31", "title": "The syntax tree is well formed", "statement": "Whenever the grammar returns, its event stream is balanced, building the tree never panics, the root is a single SOURCE_FILE node, and no leaf or node has an internal marker kind (TOMBSTONE, EOF).", "quantifier": "all texts on which the grammar returns", "why_tests_cant": "markers are completed or abandoned along unboundedly many paths through the grammar", "anchors": ["crates/parser/src/event.rs: process", "crates/parser/src/marker.rs: Marker, CompletedMarker", "crates/syntax/src/lib.rs: SourceFile::parse", "crates/syntax/src/parsing/text_tree_sink.rs: TextTreeSink"]}
{"id": "C32", "title": "Parsing always terminates", "statement": "For every text parsing stops after a number of steps bounded linearly by the text length plus the step limit: it returns a tree or panics, and never loops or recurses for ever.", "quantifier": "all texts", "why_tests_cant": "termination for all inputs", "anchors": ["crates/parser/src/parser.rs: Parser::nth", "crates/parser/src/grammar.rs: root"]}
{"id": "C33", "title": "Parse error positions", "statement": "Parse errors are reported at token boundaries inside the text, in non-decreasing order of offset.", "quantifier": "all texts on which the parser returns", "why_tests_cant": "all texts", "anchors": ["crates/syntax/src/parsing/text_tree_sink.rs: TextTreeSink::error", "crates/parser/src/event.rs: process"]}
{"id": "C34", "title": "Parsing returns a tree for every text", "statement": "The parser never panics: it returns a tree with errors for every text, also a malformed one.", "quantifier": "all texts", "why_tests_cant": "all texts; fuzzing samples", "anchors": ["crates/parser/src/lexer.rs: find_token", "crates/parser/src/parser.rs: Parser::nth", "crates/parser/src/grammar/items.rs: module, address_item_list"]}
{"id": "C35", "title": "Operator precedence and associativity", "statement": "Every chain of binary operators over atoms is parsed into the tree prescribed by the binding powers, all operators being left-associative, unless the step limit is hit.", "quantifier": "all operator/operand sequences of any length", "why_tests_cant": "sequences of any length and any mix of operators", "anchors": ["crates/parser/src/grammar/expressions.rs: expr_bp, current_op"]}
{"id": "C36", "title": "Token sets behave like sets", "statement": "A token set built from a list contains exactly the listed kinds; union contains exactly the kinds of both; no two kinds share a bit.", "quantifier": "all lists of kinds, all kinds", "why_tests_cant": "all lists; a kind numbered 128 or above would silently break", "anchors": ["crates/parser/src/token_set.rs: TokenSet", "crates/parser/src/syntax_kind/generated.rs: SyntaxKind"]}
{"id": "C37", "title": "Syntax kind numbering round trip", "statement": "Converting a syntax kind to its number and back gives the same kind, and every number that does not denote a kind is rejected.", "quantifier": "all kinds and all 16-bit numbers", "why_tests_cant": "65536 numbers; the conversion is an unchecked transmute", "anchors": ["crates/parser/src/syntax_kind.rs: From<u16> for SyntaxKind"]}
{"id": "C38", "title": "Keywords and identifiers", "statement": "A maximal run of letters, digits and underscores starting with a letter or underscore (and not followed by a byte-string quote) becomes one token, a keyword token exactly when the run is a keyword of the table and an identifier otherwise.", "quantifier": "all words and all following texts", "why_tests_cant": "all words", "anchors": ["crates/parser/src/lexer.rs: find_token, get_name_len", "crates/parser/src/syntax_kind/generated.rs: SyntaxKind::from_keyword"]}
{"id": "C39", "title": "Comments and whitespace are trivia", "statement": "Whitespace runs and line comments are each one trivia token of maximal length, and inserting trivia between two tokens that are already separated does not change the sequence of non-trivia tokens.", "quantifier": "all texts", "why_tests_cant": "all texts", "anchors": ["crates/parser/src/lexer.rs: find_token, Lexer::bump"]}
{"id": "C40", "title": "Cursor markers in fixtures round trip", "statement": "Inserting a cursor marker at an offset of a marker-free text and extracting it returns the offset and the original text.", "quantifier": "all texts without the marker, all offsets", "why_tests_cant": "all texts", "anchors": ["crates/test_utils/src/lib.rs: extract_offset, try_extract_offset, add_cursor, try_extract_range"]}
{"id": "C41", "title": "Simultaneous edits are accepted exactly when they do not overlap", "statement": "A completion with additional edits is reported as conflict free exactly when its main edit and additional edits have pairwise disjoint ranges (touching is allowed).", "quantifier": "all edit lists", "why_tests_cant": "a sort followed by a neighbour check has to be equivalent to the pairwise condition", "anchors": ["crates/move_language_server/src/lsp_utils.rs: all_edits_are_disjoint"]}
{"id": "C42", "title": "Manifest discovery", "statement": "Discovery from a directory finds the manifest of the nearest directory among it and its ancestors that has one, looks into the immediate child directories only when none has one, and discovering from many directories returns each manifest once, sorted. A path that itself is named like a manifest is taken as the manifest.", "quantifier": "all directory trees and start directories", "why_tests_cant": "all trees", "anchors": ["crates/project_model/src/lib.rs: ProjectManifest::discover, discover_all, discover_single"]}
{"id": "C43", "title": "Process output is delivered line by line", "statement": "For every way the operating system chunks a process's output the callback receives the same lines: the output split at newlines, each line once, in order, with the final unterminated line delivered at the end.", "quantifier": "all outputs and all chunkings", "why_tests_cant": "the chunking is chosen by the operating system", "anchors": ["crates/stdx/src/process.rs: streaming_output"]}
{"id": "C44", "title": "Operation queue", "statement": "An operation is started only when none is running, a request made while one runs leads to exactly one later start, and no request is lost.", "quantifier": "all histories of requests, starts and completions", "why_tests_cant": "interleavings", "anchors": ["crates/move_language_server/src/op_queue.rs: OpQueue"]}
{"id": "C45", "title": "Source roots are local or library", "statement": "After any sequence of changes every source root is in exactly one of the local and library sets according to its flag, and every file of the roots has the text last set and the root that lists it.", "quantifier": "all sequences of changes", "why_tests_cant": "unbounded sequences", "anchors": ["crates/ide_db/src/apply_change.rs: apply_change", "crates/base_db/src/change.rs: Change::apply"]}
{"id": "C46", "title": "One language client per workspace folder", "statement": "However the editor interleaves document-open events, at most one language client is started per workspace folder.", "quantifier": "all interleavings of asynchronous activations", "why_tests_cant": "depends on the interleaving of promises", "anchors": ["editors/code/src/components/ws.ts: ClientWorkspaceFactory.initClientWorkspace"]}
{"id": "C47", "title": "Interrupted downloads leave no broken binary", "statement": "If a download is interrupted at any point the destination file is either untouched or complete.", "quantifier": "all crash points", "why_tests_cant": "all crash points", "anchors": ["editors/code/src/components/net.ts: download, downloadFile"]}
{"id": "C48", "title": "Panic context stack is balanced", "statement": "In every well-nested use of panic contexts, dropping a context removes exactly the frame it pushed, and the frames shown at a panic are those of the live contexts in order.", "quantifier": "all nestings", "why_tests_cant": "arbitrary nesting", "anchors": ["crates/stdx/src/panic_context.rs: enter, PanicContext"]}
{"id": "C49", "title": "Generated syntax classes have unique accessors", "statement": "After lowering a grammar every syntax class has no two equal fields, and deduplication keeps the first occurrence of each field and the order.", "quantifier": "all grammars", "why_tests_cant": "all grammars", "anchors": ["crates/generate_ast/src/ast.rs: deduplicate_fields, extract_enums, lower_rule"]}
{"id": "C50", "title": "Case conversion and indentation helpers", "statement": "Converting to snake case yields no upper-case letters and to pascal case no underscores; removing indentation removes the same number of leading spaces from every non-blank line.", "quantifier": "all strings", "why_tests_cant": "all strings", "anchors": ["crates/stdx/src/lib.rs: to_snake_case, to_pascal_case, trim_indent"]}
{"id": "C51", "title": "Equal-range search", "statement": "On every list partitioned by the key comparison, the equal range is exactly the range of indices comparing equal.", "quantifier": "all sorted lists and keys", "why_tests_cant": "all lists", "anchors": ["crates/stdx/src/lib.rs: equal_range_by, partition_point"]}
{"id": "C52", "title": "Which file events reload the workspace", "statement": "A file event triggers a project reload exactly for manifest files and for creations or deletions of implicit target files.", "quantifier": "all paths and event kinds", "why_tests_cant": "all paths", "anchors": ["crates/move_language_server/src/reload.rs: should_refresh_for_change"]}
{"id": "C53", "title": "Longest-match punctuation", "statement": "Where a text starts with punctuation (and not a comment), the token is the longest symbol of the language that the text starts with.", "quantifier": "all texts", "why_tests_cant": "every text and every pair of overlapping symbols", "anchors": ["crates/parser/src/lexer.rs: find_token"]}
{"id": "C54", "title": "Number literals", "statement": "A run of decimal digits, or 0x and a run of hexadecimal digits, with an optional u8, u64 or u128 suffix and not followed by a word character, is one integer token.", "quantifier": "all digit runs, suffixes and following texts", "why_tests_cant": "digit runs have no bound", "anchors": ["crates/parser/src/lexer.rs: find_token, get_decimal_number, get_hex_number, get_number_maybe_with_suffix"]}
{"id": "C55", "title": "Name and extension of a virtual path", "statement": "For a virtual path that ends in a name (perhaps followed by one `/`), the name is split at its last dot into stem and extension when the stem is not empty, and otherwise returned whole without an extension; a path that ends in no name has neither.", "quantifier": "all virtual paths", "why_tests_cant": "all placements of dots and slashes, including hidden files and trailing separators", "anchors": ["crates/vfs/src/vfs_path.rs: VirtualPath::name_and_extension"]}
{"id": "C56", "title": "Valid programs are parsed without errors", "statement": "A file made of the modules, scripts, use declarations, structs, functions, statements and expressions of the supported language, written with ordinary spacing, is parsed without errors into the tree its grammar prescribes, and that tree is unique; the only alternative is the resource limit of C57.", "quantifier": "all derivations of the grammar, of any size and nesting, and all spacings and comments", "why_tests_cant": "a grammar generates infinitely many programs", "anchors": ["crates/parser/src/grammar.rs: root", "crates/parser/src/grammar/expressions.rs", "crates/parser/src/grammar/items.rs", "crates/parser/src/parser.rs: Parser", "crates/syntax/src/parsing.rs: parse_text"]}
{"id": "C57", "title": "Valid programs are parsed whatever their length", "statement": "The parser returns a tree for every valid program, however long.", "quantifier": "all valid programs", "why_tests_cant": "the failure only appears beyond any fixed test size", "anchors": ["crates/parser/src/parser.rs: Parser::nth"]}
{"id": "C58", "title": "Reformatting does not change the program", "statement": "Replacing the whitespace and comments between tokens by other whitespace and comments changes neither the syntax tree (leaving out whitespace and comments) nor the error messages.", "quantifier": "all texts, valid or not, and all replacements of trivia that keep the other tokens", "why_tests_cant": "every gap of every program", "anchors": ["crates/parser/src/parser.rs: Parser::nth", "crates/parser/src/lexer.rs: lookahead, lookahead2", "crates/parser/src/grammar/expressions.rs"]}
{"id": "C59", "title": "One document cannot hide the diagnostics of another", "statement": "The diagnostics of an open document depend on its own text only: whatever the texts of the other open documents are, its syntax errors are stored once all work is done.", "quantifier": "all texts of all open documents, all schedules", "why_tests_cant": "all combinations of documents and schedules", "anchors": ["crates/move_language_server/src/main_loop.rs: update_diagnostics", "crates/move_language_server/src/thread_pool.rs: spawn", "crates/move_language_server/src/handlers.rs: publish_diagnostics"]}
{"id": "C60", "title": "Positions are exchanged in the announced encoding", "statement": "Positions in diagnostics and in document changes count columns in the encoding the server announced to the client: UTF-8 if the client offered it, UTF-16 otherwise.", "quantifier": "all texts, positions and client capabilities", "why_tests_cant": "all characters before all positions", "anchors": ["crates/move_language_server/src/global_state.rs: file_line_index", "crates/move_language_server/src/lsp_utils.rs: apply_document_changes", "crates/move_language_server/src/to_proto.rs: position", "crates/move_language_server/src/bin/move_language_server.rs: run_server"]}
{"id": "C61", "title": "Published diagnostics belong to the version they name", "statement": "Every publishDiagnostics notification carries the version of the document its diagnostics were computed from, and that is the current version of the client.", "quantifier": "all histories and schedules", "why_tests_cant": "races between workers and changes", "anchors": ["crates/move_language_server/src/main_loop.rs: handle_event", "crates/move_language_server/src/mem_docs.rs: MemDocs"]}
{"id": "C62", "title": "Reloading leaves one client per folder", "statement": "After the extension is reloaded at most one language client runs per workspace folder.", "quantifier": "all interleavings of editor events, reloads and settled promises", "why_tests_cant": "the reload has to hit a pending asynchronous call", "anchors": ["editors/code/src/extension.ts: move.reload", "editors/code/src/components/ws.ts: ClientWorkspaceFactory.dispose, initClientWorkspace"]}
{"id": "C63", "title": "A failed start can be repeated", "statement": "If starting the client of a folder fails, a later event of a document of the folder tries again.", "quantifier": "all failed starts and all later event sequences", "why_tests_cant": "depends on the history", "anchors": ["editors/code/src/components/ws.ts: initClientWorkspace, ClientWorkspace.start"]}
{"id": "C64", "title": "Every constituent of a grammar rule has an accessor", "statement": "For every rule of the grammar, the generated class has an accessor for every constituent of the rule, with the cardinality the rule gives it, and no other accessors; the generator stops only on rules it cannot express.", "quantifier": "all grammars", "why_tests_cant": "grammars are unbounded and rules nest; the passes interact", "anchors": ["crates/generate_ast/src/ast.rs: lower, lower_rule, lower_enum, lower_comma_list, extract_enums, extract_struct_traits, extract_enum_traits"]}
{"id": "C65", "title": "Typed views show the node they were made from", "statement": "A typed view of a syntax node exists exactly when the node has one of the view's kinds, and shows that very node; the typed root of a parsed file always exists, and Parse::ok returns it exactly when there are no errors.", "quantifier": "all syntax nodes, all texts that parse", "why_tests_cant": "all trees and all texts", "anchors": ["crates/syntax/src/ast.rs: AstNode", "crates/syntax/src/ast/nodes.rs: can_cast, cast, syntax", "crates/syntax/src/lib.rs: Parse::tree, Parse::ok, Parse::cast"]}
{"id": "C66", "title": "Accessors return the constituent they name", "statement": "On the tree of a parsed file the accessors return the child or token they are named after (lhs and rhs the left and right operand, function_defs the functions of a script), and every node and token stands in the text where its offset says.", "quantifier": "all texts that parse, all nodes of their trees", "why_tests_cant": "all texts and all nodes", "anchors": ["crates/syntax/src/ast.rs: support::child, support::children, support::token", "crates/syntax/src/ast/nodes.rs: accessors"]}
{"id": "C67", "title": "Generated kinds agree with their table", "statement": "For every table of kinds the generated from_keyword and from_char know exactly the keywords and one-character punctuation of the table, the tests is_keyword, is_punct, is_literal hold of exactly the kinds of their group and exclude each other; the committed kinds are the generated ones.", "quantifier": "all tables, all texts and characters", "why_tests_cant": "all tables and all strings", "anchors": ["crates/generate_ast/src/syntax_kind.rs: generate_syntax_kinds, KINDS_SRC", "crates/parser/src/syntax_kind/generated.rs"]}
{"id": "C68", "title": "A text without syntax errors is a Move file", "statement": "If parsing a text reports no error, the tokens of the text form a Move file, and the syntax tree is the tree which the grammar assigns to it.", "quantifier": "all texts that parse without an error", "why_tests_cant": "unboundedly many texts; a test can only show that single wrong texts are rejected", "anchors": ["crates/syntax/src/parsing.rs: parse_text", "crates/parser/src/grammar.rs: root", "crates/parser/src/grammar/items.rs", "crates/parser/src/grammar/expressions.rs"]}
{"id": "C69", "title": "Unbalanced brackets are always reported", "statement": "If the braces and parentheses of a text, outside of comments and strings, are not properly nested and closed, parsing never ends without an error.", "quantifier": "all texts", "why_tests_cant": "all texts and nesting depths", "anchors": ["crates/syntax/src/parsing.rs: parse_text", "crates/parser/src/grammar.rs: block_expr_unchecked", "crates/parser/src/grammar/expressions.rs: arg_list", "crates/parser/src/grammar/items.rs: item_list"]}
{"id": "C70", "title": "Annotations of test texts point where they are drawn", "statement": "Extracting annotations from a text yields, for every run of carets in a comment, the same columns of the last line above that has room for them before its own comment (or the whole file for `^file`), with the words behind the run and the words of a bar in the next line under its end. It panics exactly if a run has no such line or a bar has no such run.", "quantifier": "all texts", "why_tests_cant": "all texts, with any number of lines, overlapping annotations and non-ASCII characters", "anchors": ["crates/test_utils/src/lib.rs: extract_annotations, extract_line_annotations"]}
{"id": "C71", "title": "Tagged ranges of test texts are found and removed", "statement": "Extracting a tag from a text in which the tag is properly nested returns the text without the tags and, sorted by position, the range each pair of tags encloses with its attribute. An opening tag without a closing one, or the reverse, is a panic.", "quantifier": "all tag names, all nestings and all texts between the tags", "why_tests_cant": "unbounded nesting and arbitrary texts", "anchors": ["crates/test_utils/src/lib.rs: extract_tags"]}
{"id": "C72", "title": "A test fixture yields the files it describes", "statement": "Parsing a fixture yields one file per metadata line with the lines that follow it, or the single file /main.move if it has no metadata line; a malformed metadata line is refused. A database can be made from every fixture of a single file.", "quantifier": "all fixture texts", "why_tests_cant": "all texts; the only test of the function expects a panic", "anchors": ["crates/test_utils/src/fixture.rs: Fixture::parse", "crates/base_db/src/fixture.rs: ChangeFixture::parse, WithFixture"]}
{"id": "C73", "title": "The server searches the directories the client names", "statement": "The server starts if the client's root URL is a directory or there is a working directory. It searches projects in all workspace folders that are directories, or in the root if there is none, and knows exactly the manifests found there. It announces UTF-8 columns exactly if the client offers them, and asks for notifications of saved documents exactly if the client can send them on request.", "quantifier": "all initialize messages, URLs, file systems and working directories", "why_tests_cant": "all combinations of missing, unusable and repeated folders and capabilities", "anchors": ["crates/move_language_server/src/bin/move_language_server.rs: run_server", "crates/move_language_server/src/config.rs: Config", "crates/move_language_server/src/lsp_ext.rs: supports_utf8"]}
{"id": "C74", "title": "The extension runs the configured executables or those of the platform", "statement": "If the settings name a path for an executable, that path is used and nothing is downloaded. Otherwise the release asset for the binary and the user's platform is used, and downloaded exactly if it is not there yet.", "quantifier": "all settings, platforms, releases and states of the storage", "why_tests_cant": "all lists of release assets on all platforms", "anchors": ["editors/code/src/components/bootstrap.ts: bootstrap, getBinaryPathEnsureExists, getPlatformLabel"]}
{"id": "C75", "title": "A failed download is repeated as long as the user asks", "statement": "The retry dialog ends with the first attempt that succeeds, or with the error of the first failure the user dismisses, and stays open otherwise. Every attempt is made with the token last entered.", "quantifier": "all sequences of failures and answers", "why_tests_cant": "unbounded sequences of attempts", "anchors": ["editors/code/src/components/net.ts: downloadWithRetryDialog, queryForGithubToken"]}
{"id": "C76", "title": "Closing a document clears its diagnostics", "statement": "After a document is closed and the work in progress is finished, the list of diagnostics the client shows for it is empty until it is opened again.", "quantifier": "all histories of opening, changing and closing documents, all schedules of the workers, all continuations", "why_tests_cant": "all interleavings of closing with running analyses and all continuations", "anchors": ["crates/move_language_server/src/main_loop.rs: on_notification, update_diagnostics, handle_event", "crates/move_language_server/src/diagnostics.rs: set_native_diagnostics", "crates/move_language_server/src/mem_docs.rs: remove"]}
{"id": "C77", "title": "No message ends the server", "statement": "Whatever message the client sends after a conforming history, the server keeps running: messages it cannot use are answered with an error or ignored.", "quantifier": "all conforming histories, all next messages", "why_tests_cant": "unboundedly many histories, texts and messages", "anchors": ["crates/move_language_server/src/main_loop.rs: handle_event, on_notification", "crates/move_language_server/src/dispatch.rs: NotificationDispatcher::on", "crates/move_language_server/src/global_state.rs: complete_request", "crates/move_language_server/src/lsp_utils.rs: apply_document_changes"]}
{"id": "C78", "title": "A position past the end of a line means the end of the line", "statement": "A column of a change that is greater than the length of its line stands for the end of the line, as the protocol says.", "quantifier": "all texts, all ranges and replacements", "why_tests_cant": "unboundedly many texts with characters of one to four bytes", "anchors": ["crates/move_language_server/src/from_proto.rs: offset, text_range", "crates/move_language_server/src/lsp_utils.rs: apply_document_changes", "crates/ide_db/src/line_index.rs: utf16_to_utf8_col"]}
{"id": "C79", "title": "Classes and choices of the typed tree have the traits they can provide", "statement": "A generated class has a trait of the table exactly if its constituents provide all methods of the trait, and does not repeat the accessors the trait provides; a generated choice has a trait exactly if each of its alternatives has it.", "quantifier": "all grammars the generator accepts", "why_tests_cant": "unboundedly many grammars", "anchors": ["crates/generate_ast/src/ast.rs: extract_struct_traits, extract_struct_trait, extract_enum_traits"]}
{"id": "C80", "title": "A token is spelled as its kind says", "statement": "Every token of a file, and so every token of its syntax tree, is spelled as its kind says: keywords and symbols as in the table of the language, names, numbers, byte strings, whitespace and comments by their rules. Each such spelling is read as one token of that kind, and no text has two kinds. So a token accessor of the typed tree yields the first direct token with the text it is named after.", "quantifier": "all texts, all tokens, all nodes of parsed files", "why_tests_cant": "unboundedly many texts and trees", "anchors": ["crates/parser/src/lexer.rs: find_token, get_name_len, get_decimal_number, get_hex_number, get_string_len", "crates/parser/src/syntax_kind/generated.rs: from_keyword, T!", "crates/syntax/src/ast/nodes.rs: token accessors"]}
{"id": "C81", "title": "Handlers of the extension are never registered twice", "statement": "However often the extension is reloaded, and whatever events arrive in between, each of its handlers and its command is registered at most once, everything registered is disposed by the next reload, at most one activation is under way, and an active extension has all its handlers.", "quantifier": "all histories of events, checks of projects, reloads and outcomes of activations, in any order", "why_tests_cant": "unboundedly many interleavings of asynchronous operations", "anchors": ["editors/code/src/extension.ts: activate, tryActivate, command move.reload"]}
{"id": "C82", "title": "A change of the settings or of a project reloads the extension", "statement": "After a change of the settings, or after a valid Dove.toml of a workspace folder was created, deleted or saved, or after the user asked for it, the extension is activated anew, so that the servers run with the present settings.", "quantifier": "all histories of events, checks of projects, reloads and outcomes of activations, in any order", "why_tests_cant": "unboundedly many interleavings of asynchronous operations", "anchors": ["editors/code/src/extension.ts: activate, tryActivate, command move.reload"]}
{"id": "C83", "title": "Every error node of a syntax tree is reported", "statement": "For each node of kind ERROR in the syntax tree of a text, the parser reports an error whose position lies in the range of the node, so no part of a text is skipped silently.", "quantifier": "all texts, all nodes of their trees", "why_tests_cant": "unboundedly many texts and trees", "anchors": ["crates/parser/src/parser.rs: err_and_bump, err_recover", "crates/parser/src/grammar.rs: error_block", "crates/syntax/src/parsing/text_tree_sink.rs: error"]}
{"id": "C84", "title": "The tree of a file without errors follows the grammar at every node", "statement": "If no error is reported, then each node of the syntax tree is an instance of a rule of the grammar for nodes of its kind: apart from whitespace and comments its children are those the rule lists, in this order, and its tokens are consecutive in the file. No node is of kind ERROR.", "quantifier": "all texts without syntax errors, all nodes of their trees", "why_tests_cant": "unboundedly many texts and trees", "anchors": ["crates/parser/src/grammar/*.rs", "crates/syntax/src/parsing/text_tree_sink.rs"]}
{"id": "C85", "title": "The typed tree finds the parts of a file without errors", "statement": "In a file without syntax errors, each accessor of the typed tree finds the part it is named after: a function has its keyword, name, parentheses, braces and statements, a script its braces and functions, a binary expression its operator, a statement its expression, a literal its token.", "quantifier": "all texts without syntax errors, all nodes of their trees", "why_tests_cant": "unboundedly many texts and trees", "anchors": ["crates/syntax/src/ast/nodes.rs", "crates/syntax/src/ast.rs: support", "crates/parser/src/grammar/items.rs: function_def, script_def"]}
{"id": "C86", "title": "The first syntax error is not reported late", "statement": "When a text has syntax errors, what stands in front of the first reported error is the beginning of some Move file: if no continuation of the text up to and including some token is a Move file, an error is reported at that token or before it.", "quantifier": "all texts for which the parser returns, all positions in them", "why_tests_cant": "the claim is about all continuations of all texts", "anchors": ["crates/parser/src/grammar.rs", "crates/parser/src/grammar/items.rs", "crates/parser/src/grammar/expressions.rs", "crates/parser/src/parser.rs: error, expect", "crates/syntax/src/parsing/text_tree_sink.rs: error"]}
{"id": "C87", "title": "A closing bracket that does not fit is reported at once", "statement": "If a closing brace or parenthesis does not close the bracket opened last, or no bracket is open, there is a syntax error at that bracket or in front of it; in front of the first error all closing brackets fit.", "quantifier": "all texts for which the parser returns, all closing braces and parentheses", "why_tests_cant": "brackets nest without bound and can be separated by any text", "anchors": ["crates/parser/src/grammar", "crates/syntax/src/parsing.rs: parse_text"]}
{"id": "C88", "title": "No schedule of the threads makes the server hang", "statement": "However the main loop and the worker threads are scheduled, handling a message ends: there is no state in which all threads wait for each other, and after a bounded number of steps the message is handled, all diagnostics work given to the pool is done or given up, and the server takes the next message. Then as many pieces of work have been ended as were given to the pool.", "quantifier": "all schedules, all sequences of messages, all pool sizes, all lengths of computations, also with panicking workers", "why_tests_cant": "a deadlock needs one particular interleaving of lock, snapshot and cancellation", "anchors": ["crates/move_language_server/src/main_loop.rs: handle_event, update_diagnostics", "crates/move_language_server/src/global_state.rs: process_changes, file_line_index", "crates/move_language_server/src/thread_pool.rs", "crates/ide_db/src/apply_change.rs"]}
{"id": "C89", "title": "Threads do not disturb each other, and stopping waits for them", "statement": "The file store is never changed while a worker reads it; between messages no computation is cancelled; when the server stops, also because the main loop panics, it ends only when no worker is at work, and no worker sends a result to a main loop that is gone. Conversely a server that was stopped has ended once nothing is left to do.", "quantifier": "all schedules, all sequences of messages, all points at which the main loop stops or panics", "why_tests_cant": "races depend on the interleaving and on the point of the crash", "anchors": ["crates/move_language_server/src/global_state.rs: Handle, GlobalState, drop", "crates/move_language_server/src/thread_pool.rs: drop, spawn", "crates/move_language_server/src/main_loop.rs: run"]}
{"id": "C90", "title": "The requests of the server and the answers of the client match", "statement": "The server sends one request, for the registration of saves, exactly if the client supports it, and no other; an answer is accepted, without any other effect, exactly if it is the first one to a request that was sent.", "quantifier": "all histories of messages, also of clients that do not conform, all ids", "why_tests_cant": "answers can come at any point of a history, late, twice or with any id", "anchors": ["crates/move_language_server/src/main_loop.rs: run", "crates/move_language_server/src/global_state.rs: send_request, complete_request"]}
{"id": "C91", "title": "The active workspace is that of the document visited last", "statement": "When all work has settled, the active workspace of the editor extension, in which commands are executed, is that of the folder of the document the user went to last; it always is a workspace that exists.", "quantifier": "all interleavings of editor events, starts of clients and reloads", "why_tests_cant": "asynchronous starts overlap in any order", "anchors": ["editors/code/src/components/ws.ts: ClientWorkspaceFactory.initClientWorkspace, activeWorkspace"]}
{"id": "C92", "title": "A path relative to a file finds the file it leads to", "statement": "Resolving a path relative to a file of a file set returns the file of the set to which the path leads from the directory of that file (`.` stays, `..` goes to the parent, an absolute path starts at the root), and None if there is no such file or the file itself is not in the set.", "quantifier": "every file set, every file, every path", "why_tests_cant": "The interplay of popping, joining and normalising over all paths, on two kinds of paths; a few examples do not show where they differ.", "anchors": ["crates/vfs/src/file_set.rs: FileSet::resolve_path", "crates/vfs/src/vfs_path.rs: VfsPath::join, VfsPath::pop, VirtualPath::join", "crates/paths/src/lib.rs: normalize_path"]}
{"id": "C93", "title": "Every route answers its requests once", "statement": "Whatever routes and handlers the server has, synchronous, changing the state, or in the pool: in every order of requests, cancellations and ends of tasks each request gets at most one response and, once no task is left, exactly one: the result or error of the first route with its method, InvalidParams for malformed parameters, MethodNotFound for an unknown method, ContentModified for a cancelled query, InternalError with the message for a caught panic, or RequestCanceled if the client cancelled it. Only a panic of a handler that changes the state ends the server.", "quantifier": "all lists of routes, all handlers, all orders of requests, cancellations and ends of tasks", "why_tests_cant": "unboundedly many handlers, requests and schedules", "anchors": ["crates/move_language_server/src/dispatch.rs: RequestDispatcher, thread_result_to_response, result_to_response", "crates/move_language_server/src/global_state.rs: register_request, respond, cancel", "crates/move_language_server/src/main_loop.rs: on_request, Task::Response"]}
{"id": "C94", "title": "The metadata of a project is what the command printed", "statement": "The extension hands to the language server the dependencies, the modules folder, the dialect and the account address that `dove metadata` printed, however the operating system cuts and mixes the pieces of the output; it waits until the process has ended; if the command fails, the user is shown the complaints of the command.", "quantifier": "all outputs of the command, all ways to cut them into pieces and to mix the two streams", "why_tests_cant": "the pieces depend on the scheduling of two processes and on buffer sizes", "anchors": ["editors/code/src/components/dove.ts: Dove.metadata, metadataWithErrorMessage, runCommand, getServerInitOptsFromMetadata"]}
{"id": "C95", "title": "The classes generated from a grammar read trees as the grammar says", "statement": "For every grammar the generator accepts, with distinct names: a syntax node can be cast to the class of a rule exactly if its kind is the kind of that rule or, for a choice, of one of its alternatives; can_cast agrees with cast and the cast value wraps that very node; a choice yields the alternative the node belongs to and there is only one. The accessor of a repeated constituent returns all children of its type in order, that of a single constituent the first one, that of a token the first token of the kind that the macro T! has for the symbol. Excluded is a choice named Stmt, for which no cast is generated. The committed classes are those generated from the committed grammar.", "quantifier": "all grammars with distinct names, all their classes and accessors, all syntax nodes", "why_tests_cant": "grammars and trees are unbounded; a test exercises one grammar and a few trees", "anchors": ["crates/generate_ast/src/ast/gen_nodes.rs: generate_nodes", "crates/generate_ast/src/ast/gen_tokens.rs: generate_tokens", "crates/generate_ast/src/syntax_kind.rs: generate_syntax_kinds (T!)", "crates/syntax/src/ast/nodes.rs", "crates/syntax/src/ast.rs: support, AstChildren"]}
{"id": "C96", "title": "A Move document is sent to the server of its folder only", "statement": "With one client per workspace folder, a document is sent to the server of a folder exactly if it is a file of the language Move that lies in the folder, whatever the path of the folder; each such document is sent to one server, that of the innermost folder it lies in.", "quantifier": "all sets of workspace folders, all documents and paths", "why_tests_cant": "paths are unbounded texts; the selector is a pattern built from the path of the folder, in which some characters are special", "anchors": ["editors/code/src/components/client.ts: createLanguageServerClient (documentSelector)", "editors/code/src/components/util.ts: isMoveDocument", "editors/code/src/components/ws.ts: ClientWorkspace.start"]}
{"id": "C97", "title": "On Windows, file sets tell paths apart exactly as the file system does", "statement": "The key under which a path is filed is the same for two paths exactly if they have the same prefix (drive in any case, share, device) and the same names, whatever separators they were written with; no path of the file system shares a key with an in-memory path; the key of a directory is a prefix of the keys of everything below it, and of nothing else than that and what lies in or is a sibling whose name begins with the name of the directory.", "quantifier": "all absolute Windows paths of all six kinds of prefix, with names in arbitrary UTF-16", "why_tests_cant": "paths are unbounded and the two tests there compare three pairs on one drive", "anchors": ["crates/vfs/src/vfs_path.rs: VfsPath::encode, windows_paths", "crates/vfs/src/file_set.rs: FileSetConfig"]}
{"id": "C98", "title": "A valid definition in front of a text does not change what is reported about the text", "statement": "Put a file without mistakes that ends with its last brace in front of any other text: the syntax tree is that of the file followed by that of the text, and the error messages are those the text gets on its own, in the same order. If the text makes the parser panic, it still does. Except if the parser gives up because it has looked at the text too often.", "quantifier": "all valid files and all texts behind them, valid or not", "why_tests_cant": "both parts are unbounded and arbitrary; the parser is one stateful run over both", "anchors": ["crates/parser/src/grammar.rs: root", "crates/syntax/src/lib.rs: SourceFile::parse", "crates/parser/src/parser.rs: Parser::nth"]}
{"id": "C99", "title": "A syntax error never says that something is missing that stands there", "statement": "Every syntax error carries one of a fixed list of messages. The next token behind the place where the error is reported, leaving out white space and comments, is none of those the message says were expected; where the message says that a semicolon was found, it is a semicolon. Each message of the list does occur, except the one of the root rule, behind which the parser does not come to an end.", "quantifier": "all texts, and all errors the parser reports for them", "why_tests_cant": "messages are produced in dozens of places, with recovery in between; that none of them is misleading concerns every text and every error in it", "anchors": ["crates/parser/src/parser.rs: Parser::error, Parser::expect, Parser::err_recover", "crates/parser/src/grammar.rs: error_block, name_r", "crates/parser/src/grammar/items.rs", "crates/parser/src/grammar/expressions.rs", "crates/parser/src/grammar/patterns.rs", "crates/parser/src/grammar/types.rs", "crates/syntax/src/parsing/text_tree_sink.rs: TextTreeSink::error"]}
{"id": "C100", "title": "Documents are known by their URIs", "statement": "A URI names the file that is reached from the root by following its decoded segments; other URIs are refused, and none ends the server. The server finds a URI for every file it keeps, the URI leads back to the same file, and different files have different URIs. What is published about an open document carries the URI under which the editor opened it, and documents opened under different URIs are kept apart. On Windows the drive letter of a published URI is in lower case and nothing else is changed.", "quantifier": "all URIs (scheme, host, path, query, fragment) and all paths, as bytes", "why_tests_cant": "the claim concerns every byte in every position of every name, and all spellings of a URI", "anchors": ["crates/move_language_server/src/from_proto.rs: abs_path, vfs_path", "crates/move_language_server/src/to_proto.rs: url_from_abs_path", "crates/move_language_server/src/global_state.rs: file_id_to_url, url_to_file_id, url_file_version", "crates/move_language_server/src/main_loop.rs: DidOpenTextDocument, PublishDiagnostics", "crates/vfs/src/vfs_path.rs: From<AbsPathBuf> for VfsPath"]}
{"id": "C101", "title": "Synchronising as announced is safe", "statement": "A client that synchronises documents in the way the server announces in its capabilities (openings and closings, changes with the whole text), and whose messages can be read, never ends the server, whatever documents, versions and texts it sends and in whatever order. For each document that is open the analysis has the text sent last, up to line endings, and the version sent last.", "quantifier": "all histories of messages that keep to the announcement, interleaved with all schedules of the background work", "why_tests_cant": "arbitrary histories and schedules, including changes of documents that are not open and several texts in one notification", "anchors": ["crates/move_language_server/src/caps.rs: server_capabilities", "crates/move_language_server/src/bin/move_language_server.rs: run_server", "crates/move_language_server/src/main_loop.rs: on_notification", "crates/move_language_server/src/lsp_utils.rs: apply_document_changes"]}
{"id": "C102", "title": "The progress of a download is true", "statement": "While a file is downloaded, after each piece of data the number shown is the percentage of the data that has arrived, the bar (the sum of the reported increments) stands at the same number, and the numbers shown only grow; it never passes 100 and is 100 when everything has arrived.", "quantifier": "all lengths and all ways in which the data is cut into pieces", "why_tests_cant": "the increments are differences of rounded numbers and are reported only on change; that they add up concerns every sequence of pieces", "anchors": ["editors/code/src/components/net.ts: download, downloadFile"]}
{"id": "C103", "title": "Absolute paths stay absolute", "statement": "Operations on absolute paths never panic and give absolute paths: joining leads along the first path and then along the second (or to the second if it is absolute), the parent leads along all names but the last and is missing for the root only, a path starts with or ends with another exactly if its names do, stripping a prefix gives the other names, normalising stays absolute, and every manifest path has a directory.", "quantifier": "all absolute unix paths and all paths joined to or compared with them, with repeated separators and dots anywhere", "why_tests_cant": "the wrappers unwrap or assert after each operation of std::path; that no text of a path makes one panic concerns all texts", "anchors": ["crates/paths/src/lib.rs: AbsPathBuf::try_from, AbsPathBuf::pop, AbsPath::join, AbsPath::parent, AbsPath::strip_prefix, AbsPath::starts_with, AbsPath::ends_with, AbsPath::normalize", "crates/project_model/src/manifest_path.rs: ManifestPath"]}
{"id": "C104", "title": "Tokens do not depend on other lines", "statement": "Splitting a text into tokens line by line gives the same tokens at the same places as splitting all of it, and succeeds exactly if it succeeds for each line. So an edit within some lines leaves the tokens of the lines above where they were and moves those of the lines below by the change of the length.", "quantifier": "all texts, all ways of cutting them at newlines, all edits", "why_tests_cant": "the lexer looks ahead by different amounts for comments, strings, numbers with suffixes and operators; that none looks past the end of a line concerns all texts behind it", "anchors": ["crates/parser/src/lexer.rs: find_token, get_string_len, get_number_maybe_with_suffix, get_name_len"]}
{"id": "C105", "title": "What is commented out is not seen by the server", "statement": "Text that is commented out with the comment commands the editor offers for Move files is not seen by the server: the tokens are those of the text without it, whatever stands in it, and no error is reported because of it.", "quantifier": "all files, all selections of lines or parts of the text, all places of the comment marker in the indentation", "why_tests_cant": "whatever stands in the commented lines must be skipped, including characters no token begins with, quotes and other markers", "anchors": ["editors/code/language-configuration.json: comments", "crates/parser/src/lexer.rs: find_token"]}
{"id": "C106", "title": "What is written below does not change what is reported above", "statement": "If two texts begin with the same tokens, the syntax errors reported in front of a token are the same for both, provided the next token that is not whitespace and the kind of the one directly behind that are the same too. In particular, whatever stands in the lines below, the errors reported in front of the last but one token above them are the same.", "quantifier": "all pairs of texts for which the parser returns, all tokens in their common part", "why_tests_cant": "the parser could look arbitrarily far ahead or take reports back; that it does not concerns all continuations of all texts", "anchors": ["crates/parser/src/parser.rs: Parser::nth, Parser::do_bump, Parser::error", "crates/parser/src/marker.rs: Marker::complete, Marker::abandon, CompletedMarker::precede", "crates/parser/src/event.rs: process", "crates/syntax/src/parsing/text_tree_sink.rs: TextTreeSink::error"]}
{"id": "C107", "title": "Names, literals and comments do not change the syntax tree", "statement": "If two texts consist of the same kinds of tokens in the same order (other names, other literals, other comments, other lengths of white space; numbers hexadecimal in both or in neither), they are parsed into the same tree up to the texts of its leaves, white space and comments included, and the same errors are reported, in the same order and in front of the same tokens. If the parser panics on one of them, it panics on the other.", "quantifier": "all pairs of texts with the same kinds of tokens, valid or not", "why_tests_cant": "texts are unbounded and the parser has contextual decisions, error recovery and a limit on lookups; a test compares a few pairs", "anchors": ["crates/syntax/src/lib.rs: SourceFile::parse", "crates/parser/src/grammar/expressions/atom.rs: bump_address", "crates/parser/src/parser.rs: Parser::nth", "crates/syntax/src/parsing/text_tree_sink.rs: TextTreeSink"]}
{"id": "C108", "title": "The version names the commit that was built", "statement": "The version the server reports in its answer to `initialize` names the commit that was checked out when the server was built, or is the version given in MOVE_LANGUAGE_SERVER_REV if that is set, together with the day and the channel of the build.", "quantifier": "all histories of commits, switches of branches, changes of the environment, cleanings and builds, and all places of the repository and the package", "why_tests_cant": "cargo runs the build script again only if something it was told to watch has changed, so the version depends on the whole history since the last run; a test builds once", "anchors": ["crates/move_language_server/build.rs: main, set_rerun, rev, commit_hash, build_date", "crates/move_language_server/src/bin/move_language_server.rs: run_server"]}
{"id": "C109", "title": "The linearity check accepts linear measurements and no others", "statement": "A test that uses AssertLinear passes if the measurements of one of its rounds lie on a line, and fails if they grow with the square in all rounds: there are never false negatives. It makes up to four rounds and stops after the first that looks linear.", "quantifier": "all lists of measurements of any length, and all sequences of rounds", "why_tests_cant": "the measurements are arbitrary numbers, and a test of the check has only a few", "anchors": ["crates/test_utils/src/assert_linear.rs: AssertLinear::next_round, AssertLinear::sample, AssertLinear::drop, Round::finish"]}
{"id": "C110", "title": "Typed tokens are what they look like", "statement": "A token of a parsed file can be cast to Whitespace exactly if it is blank, to Comment exactly if it starts with //, to IntegerNumber exactly if it starts with a digit and is not an address, to ByteString exactly if it is written b\"...\", and to HexString exactly if it is written x\"...\"; can_cast agrees with cast, and the cast token has the same text.", "quantifier": "all texts, valid or not, all nodes of their trees and all tokens", "why_tests_cant": "unboundedly many texts and trees", "anchors": ["crates/syntax/src/ast/tokens.rs: Whitespace, Comment, HexString, ByteString, IntegerNumber", "crates/syntax/src/ast.rs: AstToken", "crates/parser/src/lexer.rs: find_token"]}
{"id": "C111", "title": "The exit status tells how the session ended", "statement": "The process of the server ends with status 0 exactly if the client opened the session as the protocol says, asked for a shutdown and then sent exit; when it cannot start, when the client leaves without exit or exits without shutdown, and when the server panics, it ends with another status; otherwise it goes on.", "quantifier": "all environments, all openings of a session, all histories of messages and schedules of background work", "why_tests_cant": "unbounded histories combined with all ways a start can fail", "anchors": ["crates/move_language_server/src/bin/move_language_server.rs: main, try_main, setup_logging, run_server", "crates/move_language_server/src/main_loop.rs: run"]}
{"id": "C112", "title": "The log does not disturb the protocol and contains what was asked for", "statement": "Whatever is logged, and whatever the environment says about the log, the messages on the standard output stream and the exit status are the same, provided the log can be set up at all. What is logged stands in the file RA_LOG_FILE names, or else on the standard error stream, and the level the extension asks for is the one that is used.", "quantifier": "all environments, filters, sessions and records", "why_tests_cant": "all combinations of settings with all histories", "anchors": ["crates/move_language_server/src/logger.rs: Logger::new, Logger::install", "crates/move_language_server/src/bin/move_language_server.rs: setup_logging", "editors/code/src/components/client.ts: createLanguageServerClient"]}
{"id": "C113", "title": "The tasks of the extension run what they say", "statement": "Each folder with a running client offers the tasks dove build and dove test, each once, and no other folder offers any; a task runs the command it is named after in the folder it is shown for; and a task the user has written down as the extension declares it, with a subcommand and arguments, runs dove with these in a folder.", "quantifier": "all interleavings of editor events, pending calls and reloads; all written tasks", "why_tests_cant": "depends on the interleaving of promises", "anchors": ["editors/code/src/components/tasks.ts: DoveTaskProvider", "editors/code/src/components/ws.ts: ClientWorkspace.start, stop", "editors/code/package.json: taskDefinitions"]}
{"id": "C114", "title": "Process output is delivered on Windows too", "statement": "On Windows, when running a command with streamed output returns without an error, everything the command has written to its output and to its error output has been collected, in order, and has been passed on line by line, the last line included even if no newline ends it; the function never waits for a stream no read is under way for, and never stores beyond its buffer.", "quantifier": "all outputs, all ways the system cuts and orders the completions, all times at which the command closes its streams, all sizes of the buffer", "why_tests_cant": "depends on whether the command has exited when the next read is started", "anchors": ["crates/stdx/src/process.rs: streaming_output, imp (windows)::read2, Pipe::read, Pipe::complete, slice_to_end"]}
{"id": "C115", "title": "The prepared file sets contain the sources of a package", "statement": "The prepared file set of a directory contains exactly the Move sources below it that are not below its .git; that of a local package also leaves out its folder target, that of a dependency its folders tests, examples and benches.", "quantifier": "all directories, all paths", "why_tests_cant": "a statement about every path and every place of the package", "anchors": ["crates/vfs/src/loader.rs: Entry::rs_files_recursively, Entry::local_cargo_package, Entry::cargo_package_dependency, dirs"]}
{"id": "C116", "title": "The generator keeps the generated files up to date", "statement": "A run of the generator succeeds exactly if every generated file is there with the generated contents, line endings aside, and then it changes no file; a run that fails has brought the first file that was not up to date to its generated contents and changed no other file; so after as many runs as files were out of date, and not before, runs succeed.", "quantifier": "all contents of the files before, all generated contents, any number of files and runs", "why_tests_cant": "the generator is itself a test; the claim is about every state of the files and every history of runs", "anchors": ["crates/test_utils/src/lib.rs: ensure_file_contents, try_ensure_file_contents, normalize_newlines", "crates/generate_ast/src/generate_all.rs: generate_ast"]}
{"id": "C117", "title": "What the editor shows about a document is about its text", "statement": "When the client has kept to the protocol and all work is done, the errors shown for an open document depend on its present text only, whatever was typed, opened and closed before and whatever its line ends are; nothing is shown for a correct file; every mark stands at a place of the text the client has; and when a bracket does not fit, or no file begins like the document, something is shown, at that place or in front of it, or somewhere when a bracket is not closed.", "quantifier": "all conforming histories of any length, all texts and edits, all schedules, all pairs of sessions", "why_tests_cant": "the claim compares the end of any two histories and ranges over all texts that are or are not Move files; it runs through every part of the server", "anchors": ["crates/move_language_server/src/main_loop.rs: GlobalState::run, handle_event, on_notification", "crates/move_language_server/src/handlers.rs: publish_diagnostics", "crates/syntax/src/lib.rs: SourceFile::parse", "crates/move_language_server/src/to_proto.rs: position, range", "crates/move_language_server/src/diagnostics.rs: DiagnosticCollection"]}
{"id": "C118", "title": "What the workers answer belongs to the contents that are there", "statement": "Every line index and syntax tree that a worker uses was computed after the last change of any file. No two workers compute the same thing at the same time, and none computes what is already known. A worker leaves a document without an answer only when a change is under way or when the thread it waited for did not end. A change waits for the diagnostics that are being computed or are waiting to be computed and for nothing else, and while it waits every computation can be broken off.", "quantifier": "all schedules, all sequences of messages, all pool sizes, all lengths of computations, also with panicking workers", "why_tests_cant": "an outdated answer is used only when a change falls between the computation and its use, in one interleaving of several threads", "anchors": ["crates/move_language_server/src/main_loop.rs: update_diagnostics", "crates/move_language_server/src/handlers.rs: publish_diagnostics", "crates/ide_db/src/apply_change.rs: apply_change, request_cancellation", "crates/ide/src/lib.rs: Analysis, AnalysisHost"]}
{"id": "C119", "title": "The log blames the client for exactly what it did wrong, and does not repeat documents", "statement": "The main loop writes an error to the log for a document opened twice, for a document changed or closed without being open, for a request the server does not know and for a notification it does not know, one for each such message, in their order, and no error for anything else. A client that makes none of these mistakes and sends only what it was asked for finds no errors in the log. What is written in the documents the client opens and changes does not show in the errors. A notification comes to the handler for its method and to no other.", "quantifier": "all sequences of messages with any methods and parameters, all ways to read parameters, all schedules of the workers, all runs including those that end in a panic", "why_tests_cant": "whether a document is open depends on the whole history, and that the log does not depend on texts compares all pairs of runs", "anchors": ["crates/move_language_server/src/main_loop.rs: on_request, on_notification, run", "crates/move_language_server/src/dispatch.rs: NotificationDispatcher, RequestDispatcher::finish", "crates/move_language_server/src/mem_docs.rs: MemDocs"]}
{"id": "C120", "title": "The log has one line for each error, and a line tells what it is about", "statement": "Every error the server logs is one line of the log, whatever the messages contain: nothing a client sends, no method, no parameter and no name of a file, can add lines to the log or join them. A line tells which kind of error it is about and, for documents, which path.", "quantifier": "all sequences of errors, all methods, parameters and paths", "why_tests_cant": "whether a log can be read depends on every character that can come in a message; the characters that break it are not those one thinks of", "anchors": ["crates/move_language_server/src/logger.rs: LoggerFormatter::format_event", "crates/move_language_server/src/main_loop.rs: on_notification", "crates/move_language_server/src/dispatch.rs: finish", "crates/vfs/src/vfs_path.rs: Display for VfsPath"]}
{"id": "C121", "title": "The token for GitHub goes to GitHub only, and is used", "statement": "The authorization token a user enters is in every later request for the release, until another one is entered, and in the requests of later sessions. It goes to GitHub's API and to no other address; neither the output of the extension nor its dialogs nor any other request depend on it. When a download fails and the user enters a token, the next attempt is made with it.", "quantifier": "all answers of the network, all answers of the user, all tokens, all settings of the log", "why_tests_cant": "that a secret does not leak compares all pairs of runs with different secrets", "anchors": ["editors/code/src/components/net.ts: fetchRelease, download, downloadFile, downloadWithRetryDialog, queryForGithubToken", "editors/code/src/components/persistent_state.ts: PersistentState", "editors/code/src/components/bootstrap.ts: getBinaryPathEnsureExists", "editors/code/src/components/util.ts: log"]}
{"id": "C122", "title": "The tree and the diagnostics of a text are in proportion to it", "statement": "There is a fixed factor such that the syntax tree built for a text and the list of its syntax errors together never have more nodes and errors than this factor times the number of tokens of the text that are not whitespace or comments, plus a constant. This holds for texts that are not Move files as well, so error recovery cannot blow up the memory used or the diagnostics sent. In particular the nodes are not nested deeper.", "quantifier": "every text for which parsing returns a tree, valid or not, of any length", "why_tests_cant": "Error recovery could add nodes or messages without consuming tokens in some loop for some sequence of tokens; tests try a few sequences and cannot exclude one that grows faster than the text.", "anchors": ["crates/parser/src/parser.rs: Parser::nth, Parser::err_recover, Parser::error_and_skip_until", "crates/parser/src/marker.rs: Marker::complete, CompletedMarker::precede", "crates/parser/src/grammar.rs and grammar/: all functions", "crates/syntax/src/parsing.rs: parse_text"]}
{"id": "C123", "title": "Whitespace and comments around a construct are not part of its node", "statement": "In the syntax tree of a file the node of a construct (an item, a statement, an expression, a name) starts at its first token and ends at its last token that is not whitespace or a comment; the whitespace and the comments before it and after it belong to a node around it. So the range of a node, as it is used for diagnostics, names and completion, is the range of the construct itself. Only the node of the whole file starts and ends with them.", "quantifier": "every text for which parsing returns a tree, valid or not, and every node of the tree below the root", "why_tests_cant": "Where trivia go depends on the order of the calls that start and finish nodes, over all nestings and all error recoveries, and on what was attached before; tests look at a few trees.", "anchors": ["crates/syntax/src/parsing/text_tree_sink.rs: TextTreeSink::token, TextTreeSink::start_node, TextTreeSink::finish_node, TextTreeSink::finish", "crates/parser/src/event.rs: process", "crates/parser/src/grammar.rs: root"]}
{"id": "C124", "title": "The trace of the extension follows its setting", "statement": "While the setting move.trace.extension is on, the messages the extension gives for tracing are written to its output channel, and while it is off they are not; a change of the setting takes effect without restarting the editor. Messages that are no trace (information, warnings and errors) are written in either case, each once and in order, and each error brings the channel up.", "quantifier": "every history of changes of the setting, of events of the editor that reload the extension or fail to, and of messages", "why_tests_cant": "Whether a change is seen depends on how it interleaves with activations, reloads and failures; there are infinitely many histories and the losing ones need a change in a short interval.", "anchors": ["editors/code/src/components/util.ts: log.setEnabled, log.debug, log.info, log.warn, log.error", "editors/code/src/components/settings.ts: ExtensionSettings.logTrace", "editors/code/src/extension.ts: tryActivate, move.reload, onDidChangeConfiguration", "editors/code/src/components/bootstrap.ts: bootstrap"]}
