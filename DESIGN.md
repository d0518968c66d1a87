# Formal model of move-language-server: design

The model and the proofs are written in Lean 4, with its core library only.  Sources live under
`lean/Verif/`.

## Layout

Every area has up to four kinds of files:

* `Model.lean`: executable definitions that transliterate the Rust (or TypeScript)
  code, each with a citation of the file and lines it models and the simplifications made;
* `Spec.lean`: small definitions that only use the English vocabulary of the property
  (text, offsets, paths, histories) and none of the model's helpers;
* `Lemmas.lean`: auxiliary facts;
* `Props.lean`: the property theorems, each with a non-vacuity `example`.

The parser area is larger: `Prog` (monad of grammar programs), `Grammar`, `GrammarBodies` (the
grammar functions), `Event`, `Process`, `Sink` (events to tree), `Check`, `Budget`, `Walk`, `Root`
(termination, marker discipline), `HighLevel`, `Tree`, `SinkLemmas` (trees), `Props` (C30–C34), then
`Token`, `Stream`, `Wp`, `Language`, `Accept*`, `Shapes`, `Fragment`, `Operators`, `Samples`, `Layout`
(C35, C56–C58), `Strict`, `Lenient`, `Sound*` (C68, C69), `Error*` (C83), `Viable*`, `FirstError` (C86, C87), and
`Lost*` (C34), `Shift`, `Front` (C58, C98), `Missing*`, `Said` (C99).

## Modelling conventions

* Text is `List Char`; byte lengths are sums of `Char.utf8Size`, so byte offsets that are
  not character boundaries exist in the model and slicing at them is a panic, as in Rust.
* A panic (failed `assert!`, `unwrap`, out of range index, `todo!()`, slicing off a
  character boundary) is an explicit result value (`none` or `.panic`), never a default.
* `&mut` parameters become returned values.  Loops become structural recursion or a fold;
  the mutually recursive grammar is interpreted with a fuel argument, and the termination
  theorem states that the fuel the entry point supplies never runs out.
* `u32`/`usize` are `Nat`: files below 4 GiB are assumed.  Hash maps are functions or
  association lists; where iteration order matters it is a parameter.
* External crates are modelled by their documented contract at the call sites used.

## Trusted base

* Lean 4.33.0's kernel.  Axioms: only `propext`, `Classical.choice`, `Quot.sound`.  No theorem
  uses `native_decide` or `bv_decide`; `decide +kernel` is used for finite tables and for witnesses.
* The reading of the source code: the model is not extracted from the code.  As a check of the
  reading, `Conformance/Trees.lean` runs the parser model on the ten inputs of
  `crates/syntax/test_data/parser` and compares with the expected trees there, byte for byte, and
  `Conformance/Units.lean` is the repository's unit tests, on the models.
* Contracts of external code:
  * cargo runs a build script again if a file or a variable named in a `rerun-if` line has changed, or after `cargo clean`; git
    writes `.git/HEAD` when another branch or commit is checked out, or when a commit is made without a branch.
  * Windows pipes (C114): a read is started or fails at once, as broken only when all has been read; a started read ends
    with at least a byte, or with none at the end; each end of a read is reported once.
  * `rowan::GreenNodeBuilder`: `start_node`, `token`, `finish_node` build the tree in order;
    `finish_node` without a node panics; kinds are kept as numbers.
  * `salsa`: inputs return the last value set; a write cancels and waits for all snapshots; a
    cancelled query is reported as such and its result dropped; a panic in a query unwinds the worker only.
  * `lsp_server::ReqQueue`: a map from ids; `complete` of an unknown outgoing id panics.
  * `fst::Map`: built from sorted unique keys; a stream over `starts_with`/prefix automata returns
    matching keys in order.
  * `url` 2.2.2 and `percent-encoding` 2.1.0: `to_file_path` and `from_file_path` decode and encode segment by segment, as
    modelled in `Urls/Model.lean` from their documentation; from this it is proved (C100) that a URL made from a path
    converts back to it, which `Verif.Server` relies on.  `Url::parse` is not modelled.
  * `parking_lot::RwLock`: no reader beside a writer; a waiting writer keeps new readers out and enters when the
    readers have left; locks are released by unwinding.  `threadpool`: a job is run once by an idle worker, a
    panicking worker is replaced, `join` waits for all jobs.  salsa: a query under computation is waited for.
  * `crossbeam` channels: unbounded, first in first out per sender.
  * `str::from_utf8` inverts `into_bytes`.
  * JavaScript runs the code between two `await`s without interruption; `getWorkspaceFolder` returns the same
    object for the same folder; a response stream ends without error only after the whole body; `rename`
    replaces the destination in one step; random names of temporary files differ.
  * VS Code matches a document selector by scheme, language and pattern; a pattern is turned into a regular expression
    as in its `glob.ts`.
  * For a task written in `tasks.json` VS Code asks `resolveTask` and then looks among the offered tasks for one with the same
    definition.
  * `lsp_server`: `initialize_start` and `initialize_finish` succeed if the client sends `initialize` and `initialized`;
    `tracing_subscriber`: an `EnvFilter` decides on each record, and every layer writes what it lets pass.
  * `Math.round((read / total) * 100)` is a parameter: 0 at 0, 100 at the total, monotone.
  * `ungrammar`: a grammar is a list of rules with distinct names; `quote` and `rustfmt` print what they are given.
  * File system calls of the discovery answer consistently during one call.
  * `JSON.parse` is a parameter; node converts a piece of output to a string by decoding UTF-8 with replacement characters.
  * `Url::to_file_path` is a parameter; the working directory is an absolute path.
  * `poll` reports pipes that are readable or closed; `read` on a closed pipe returns 0.

### What is modelled

`crates/ide_db/src/line_index.rs`; `line_index.rs`, `lsp_utils.rs` (edits), `from_proto.rs`,
`to_proto.rs` (ranges), `mem_docs.rs`, `global_state.rs`, `main_loop.rs`, `dispatch.rs`, `handlers.rs`,
`diagnostics.rs`, `thread_pool.rs` (data in `Verif.Server`, locks and schedules in `Verif.Server.Threads`), `reload.rs` (partition) of `move_language_server`; all of `vfs`
except the loader's threads; `paths` (normalisation and the wrappers of absolute paths) and `manifest_path.rs`; paths relative to a file (`file_set.rs`, `anchored_path.rs`); the keys of Windows paths (`vfs_path.rs`); the conversion between URIs and paths (`from_proto.rs`, `to_proto.rs`); `base_db` and `ide_db` inputs;
`ide_diagnostics`; all of `parser`; `parsing.rs`, `text_tree_sink.rs`, `syntax_node.rs` (builder) of
`syntax`; of `stdx` the case, indentation and search helpers, `process.rs` and `panic_context.rs`;
`op_queue.rs`, `should_refresh_for_change`; the discovery of `project_model`; the cursor markers,
annotations, tags and fixtures of `test_utils`, its `assert_linear.rs` over rationals, and `base_db/src/fixture.rs`; `ast.rs`, `ast/nodes.rs`, `ast/tokens.rs` and `Parse` of `syntax`; `ast.rs`, `gen_nodes.rs`, `gen_tokens.rs` and `syntax_kind.rs` of
`generate_ast`; `ws.ts`, `net.ts`, `persistent_state.ts`, `bootstrap.ts`, `extension.ts`, `dove.ts`, `client.ts` (document selector) of the editor extension; the start of the
server in `bin/move_language_server.rs` with `config.rs`, its process and `logger.rs`; `tasks.ts`; `build.rs`.

### What is not modelled

Memory, time, native stack depth (a deeply nested file can overflow the stack of a worker), 32-bit
overflow of sizes, operating-system errors, JSON decoding (a message arrives decoded or is
`malformed`), the `notify` file watcher, salsa's recomputation strategy, and rowan's cursor API.

## Where the code disagrees with a property

For each, the negation is proved on a witness or in general, and the remaining part is a theorem with
the suffix `_partial`.

* C18: the root `/a/b` also captures `/a/bc` (prefix of bytes, not of components).
* C121: the dialog behind a failed download of a file asks for a token that no attempt uses.
* C120: paths stand in the log without escapes; closing a document whose name has a line break adds any line to the log.
* C119: the server asks for reports of saved documents and logs each one as an error, `unhandled notification`.
* C26: the default configuration has no local file set, so no diagnostics are ever published.
* C28, C61: results are stored in the order of arrival, so an old result can overwrite a newer one, and
  old diagnostics are published with the new version.
* C34: a character without token, a token that starts no item (in a file, an `address` block, a module or a script),
  a function directly in an `address` block, `{` among the fields of a struct, `)` in a block, and `;` between
  parentheses make the parser panic.  For texts of up to 907 tokens these are all causes.
* C39: the length of byte strings is counted in characters and used in bytes, so non-ASCII byte strings
  end in the wrong place.
* C57: the "parser seems stuck" counter is never reset: every valid file with more than 10001
  identifiers panics.
* C58: `a::b{x}` and `a::b*c` need a space; a comment behind a module's name, or behind a field name in a
  pattern or record, breaks the parse.
* C59: one document that makes the parser panic suppresses the diagnostics of all open documents.
* C50: `trim_indent` measures indentation in bytes of any whitespace and slices, so wide whitespace can make
  it panic.
* C52: `should_refresh_for_change` knows `Cargo.toml` and Rust files, not `Dove.toml`; it is also called
  nowhere.
* C95: a choice named `Stmt` gets no `cast` although accessors of that type use it; `T![shebang]` names a kind that
  does not exist.
* C96: the path of a folder is used as a pattern, so special characters in it select the wrong files; nothing is selected
  in `/`; files of nested folders are sent to two servers.
* C100: a document that was opened under another spelling of its URI (`%28` for `(`) is published under a URI the editor does
  not know; the scheme is ignored, so `git:/a.move` is taken for the file; on Windows `file:///c:` ends the server.
* C102: without a `Content-Length` the editor shows `Infinity%`, and for a compressed response more than 100 %.
* C90, C77: a second answer to the one request of the server, or an answer to no request, ends the server.
* C91: when a folder takes longer to start than the next one, it becomes the active workspace although the user has left it.
* C108: the build script watches `.git/HEAD`, which does not change with a commit on a branch, so the version reported is that of
  an earlier commit; the channel is not watched either.
* C109: any measurements are accepted once a large enough constant is added, although the comment says there are no false
  negatives.
* C111: `exit` without `shutdown` ends the process with status 0.
* C112: the extension sets `RUST_LOG`, the server reads `MOVE_LS_LOG`, so only errors are logged.
* C115: the prepared file sets are those of Rust packages: they contain no Move file, and the excluded `/tests` of a
  dependency is a folder at the root of the file system.
* C114: on Windows a read that fails with a broken pipe marks the stream as done without passing on what the buffer
  holds: an output like `ok` without newline is lost if the command exits before the next read.
* C113: `resolveTask` returns nothing, so a written task with arguments is never run.
* C110: `x"…"` is a `ByteString`; nothing is ever a `HexString`.
* C105: the extension declares block comments, which the lexer does not have: a file that begins with one, or has one between its
  definitions, makes the parser panic (and hides the diagnostics of all documents, C59).
* C92: a relative path in a file that is unknown panics, and of a file with a virtual path only paths with leading `../`s are
  resolved like those of a real one.
* C94: a character cut between two pieces of the output of `dove metadata` is lost, and the exit code is ignored.
* C62: a reload while a folder's client is being started leaves two clients running.
* C63: when a start fails the folder keeps its entry, so no later event starts a client until a reload.
* C49, C64: when a class of the grammar uses all alternatives of a choice they are merged into one accessor,
  which duplicates an accessor of the choice itself, loses repetitions and loses labels (`lhs:A rhs:A` too); fields such as `name`
  move to a trait that is not generated.
* C66: `BinExpr::rhs` returns the left operand; names are no `Expr`; `ScriptDef::function_defs` finds nothing,
  because the parser puts functions into an item list.
* C68: texts that are no Move files pass without an error: `module M;`, `script;`, statements and `let`
  without a semicolon, `(a b c)`, `S { 1 + 2 }`, type parameters with empty bounds (`T:`, `T: copy +`).
  `Lenient.lean` is the complete list.
* C72: the branch of `Fixture::parse` that makes files is commented out: no fixture has a file, and a database
  from a single file or with a position always panics.
* C74: on Windows the asset for macOS matches, because `darwin` contains `win`; the path of the language
  server is a constant in one developer's home directory, whatever the settings say.
* C76: nothing is published for a document after it was closed; its errors stay with the client.
* C77: malformed notifications, responses to unknown requests and changes outside the text end the server.
* C78: a column past the end of a line is read as bytes of the following lines, or ends the server.
* C79: a class gets a trait if the number of its accessors with names of the trait's methods is the number of
  methods, so two accessors of one name count as two methods.
* C80: a byte string with characters outside ASCII ends before its closing quote; `0xu8` is a number.
* C82: after a failed activation the command `move.reload` does not exist and no change reloads the extension; a
  reload asked for while an activation is under way is lost.
* C85: the typed tree finds neither name, parentheses, braces nor statements of a function, nor braces and functions
  of a script, in any file; `= < > | ^ &` are no operators for it.
* C86: no file begins with `module M; module`, but the first error of `module M; module {` is behind that.
* C60: diagnostics are always sent in UTF-8 columns, changes always read in UTF-16 columns.

Smaller ones, recorded beside the theorems: a change with a reversed range panics (C06); normalising line
endings is not idempotent on `\r\r\n` (C11); removing a cursor marker can form a new one (C40);
an annotation of three lines panics although multi-line values are documented (C70); `<tagged>` is taken for a
tag `tag` (C71); discovery
from a path with `..` looks into a directory that is not an ancestor (C42); a download whose stream ends
early without an error is installed, its length is never compared (C47); joining `..` below a virtual root (C20).

The grammar of C56 is that of the constructs the parser knows.  The parser does not know: the operators
`==`, `!=`, `<=`, `>=`, `&&`, `||`; tuple expressions; type arguments; `&mut` expressions; type parameters
of functions; constants, visibility, specs.  These are missing features rather than violations of a
property, and show up as errors or panics (C34).

## Plan per property

| id | what is modelled and how it is proved |
|---|---|
| C01 Offset/position round trip | LineIndex model; round trip by the partition-point characterisation of sorted line starts. |
| C02 Position of an offset is the editor's position | Same model; spec counts newlines in the character prefix. |
| C03 UTF-8/UTF-16 column conversion | Same model; induction over the characters of one line relating both conversion loops to UTF-16 lengths. |
| C04 Position order is offset order | Same model; monotonicity of the partition point. |
| C05 Splitting a range into lines loses nothing | Same model; pieces proved contiguous, non-empty, newline-free except at the end. |
| C06 Incremental document changes follow the LSP rules | Model of apply_document_changes with its cached index; refinement to a fold that re-indexes each time, plus a counterexample for reversed ranges. |
| C07 One change replaces exactly its range | Same model; spec in terms of prefix/suffix and UTF-16 positions. |
| C08 Document synchronisation | Event-loop state machine; invariant relating store, database and the client's documents. |
| C09 The server does not crash on protocol-conforming documents traffic | Same state machine with explicit panics; inductive invariant excluding them. |
| C10 Document versions | Same state machine; refinement to a map path -> last version. |
| C11 Line-ending normalisation | Byte-level model of the gap-moving loop; equality with a recursive CRLF replacement. |
| C12 File ids are stable and never reused | Vfs state machine; interner invariants. |
| C13 The file store returns the last write | Vfs state machine; refinement to a map from paths to contents. |
| C14 The change log is complete and exact | Vfs state machine; replay theorem over drained records. |
| C15 Listing the file store | Vfs state machine. |
| C16 Every file belongs to exactly one file set | FileSet model over encoded byte paths. |
| C17 Longest matching root wins | FileSet model; classification equals argmax of prefix length. |
| C18 A root does not capture its sibling directories | Violated: negation with a witness, and the exact condition under which it holds. |
| C19 Path normalisation | Component-level model of normalize_path. |
| C20 Joining virtual paths | String-level model of VirtualPath::join. |
| C21 Watch filter: deepest include decides, excludes override | Component-level model of Directories. |
| C22 Diagnostic change notifications are exact | DiagnosticCollection state machine and a client that fetches what is reported. |
| C23 Diagnostics are bounded and lie inside the file | `Pipeline/Model.lean` composes parser, error list, line index and conversion; corollary of C02, C04, C33. |
| C24 Every request gets exactly one response | Event-loop state machine; responses as a function of the history. |
| C25 Shutdown and exit | Same. |
| C26 Syntax errors of open documents reach the client | Violated: no history publishes; proved as a theorem about all histories. |
| C27 Cancellation | Same state machine. |
| C28 Stored diagnostics converge to the last text | Scheduler model with delayed sends; negation with a schedule, partial theorem for in-order delivery. |
| C29 Tokens cover the text | Lexer model; induction over bumps. |
| C30 The syntax tree is lossless | Parser as programs over marker operations; event stream, process and tree sink modelled; refinement to a direct tree builder. |
| C31 The syntax tree is well formed | Same. |
| C32 Parsing always terminates | Lexicographic measure (step budget + remaining text, rank of grammar function). |
| C33 Parse error positions | Same pipeline model. |
| C34 Parsing returns a tree for every text | Violated: concrete panicking texts; every panic is classified. For texts of up to 907 tokens the parsed ones are exactly those in which no loop of the grammar comes to stand at a token that it neither consumes nor ends at (`Lost*`: an induction over runs with a budget of lookups per token). |
| C35 Operator precedence and associativity | Chains as a list of operators and operands; the grouped tree is characterised by binding strength alone; uniqueness and existence, then instance of C56. |
| C36 Token sets behave like sets | Bit-set model over Nat; decided over the whole finite table of kinds and lifted by induction over lists. |
| C37 Syntax kind numbering round trip | Whole finite table. |
| C38 Keywords and identifiers | Lexer model. |
| C39 Comments and whitespace are trivia | Lexer model. |
| C40 Cursor markers in fixtures round trip | `TestUtils/`: first occurrence of the marker characterised by prefixes; the inserted marker is the first. |
| C41 Simultaneous edits are accepted exactly when they do not overlap | Sort + neighbour check; equivalence with pairwise disjointness for well-formed ranges. |
| C42 Manifest discovery | `Project/`: paths as component lists, the file system and the iteration order of the hash set as parameters; induction over the ancestors, sortedness and uniqueness of the sorted list. |
| C43 Process output is delivered line by line | `Stdx/Process*`: lossy UTF-8 decoder and the polling loop over arbitrary chunkings; invariant that delivered lines and buffer are the split of the bytes read so far. |
| C44 Operation queue | Histories of events; the two flags are shown to be the two facts of the history by induction. |
| C45 Source roots are local or library | Database input maps; induction over changes. |
| C46 One language client per workspace folder | `Editor/Ws*`: tasks between `await`s, any scheduling and any outcome; counting invariant: calls that can still start a client plus clients is at most one. |
| C47 Interrupted downloads leave no broken binary | `Editor/Download*`: interleaved steps of any number of downloads on a file map, each may stop anywhere; invariant on temporary and other files. The hypotheses are on what happens only: a reliable network (`Spec.Reliable`) and random digits of their own. What is stored came with status ok; a binary that is used was there or was written without error. |
| C48 Panic context stack is balanced | Programs as trees of blocks, panics and catches; induction on the program. |
| C49 Generated syntax classes have unique accessors | `AstGen/*`: `lower` on arbitrary grammars.  Violated when a class uses a choice beside its alternatives: witness.  Partial theorem by induction over the enums. |
| C50 Case conversion and indentation helpers | String functions; characterisations by induction.  `trim_indent` panics exactly if the smallest indentation ends inside a character of some line (`trim_indent_panics_iff`); otherwise every line loses it.  Every text is made of the lines the theorems speak of (`trim_indent_covers`). |
| C51 Equal-range search | Binary search of the standard library; partition predicate. |
| C52 Which file events reload the workspace | Violated: `Cargo.toml` instead of `Dove.toml`.  Exact characterisation of the events by path suffixes. |
| C53 Longest-match punctuation | Lexer model: the symbol table in source order, compared with an independent list of symbols. |
| C54 Number literals | Lexer model. |
| C55 Name and extension of a virtual path | String-level model of name_and_extension. |
| C56 Valid programs are parsed without errors | Independent context-free grammar (`Parser/Language.lean`); the grammar functions are run on an abstract token machine (`Token.lean`), to which the real parser is related by simulation (`Fragment.lean`, `parse_follows`); acceptance by induction over derivations; uniqueness follows because the machine is deterministic. |
| C57 Valid programs are parsed whatever their length | Violated: lower bound on the number of lookups per identifier; upper bound gives the partial theorem. |
| C58 Reformatting does not change the program | Violated: witnesses by evaluation.  A relation on token lists records what the grammar can see of the gaps between tokens; every function of the grammar is shown to do the same on related lists (`Blind.lean`), which gives the partial theorem for all texts: all gaps may change freely except those listed in `Reformatted`.  `Placed.lean` follows the tree sink over the calls and gives the places of the errors. |
| C59 One document cannot hide the diagnostics of another | Violated: two-document history with symbolic texts.  Partial theorem from C28 with the modelled parser as analysis. |
| C60 Positions are exchanged in the announced encoding | Violated: witnesses; exact condition from the line-index theorems. |
| C61 Published diagnostics belong to the version they name | Event-loop state machine; witness schedule for the violated half. |
| C62 Reloading leaves one client per folder | Violated: witness schedule.  Partial theorem for reloads without pending calls, invariant as in C46. |
| C63 A failed start can be repeated | Violated: invariant of the failed state over all continuations.  Partial theorem for starts that fail before the entry is made. |
| C64 Every constituent of a grammar rule has an accessor | Specification `Constituent` as an inductive relation; induction on rules, fold invariants for the passes.  Violated by merging and by the traits: witnesses; partial theorem for coverage. |
| C65 Typed views show the node they were made from | `Ast/*`: all classes of nodes.rs; case analysis, and the root kind of every parse. |
| C66 Accessors return the constituent they name | `rhs` is `lhs` for all nodes; witnesses on parsed files.  Partial: the accessors as first or all children with a view; offsets by induction on the tree. |
| C67 Generated kinds agree with their table | `AstGen/Kinds`: the generator on arbitrary tables; the committed enum and `from_keyword` compared as a whole with the generated ones. |
| C68 A text without syntax errors is a Move file | `Parser/Sound*`: partial correctness of every grammar function on a machine that stops at the first error, by induction on the depth of calls.  Violated, witness `module M;`; partial theorem for the grammar `Lenient.lean`, which lists what passes besides files. |
| C69 Unbalanced brackets are always reported | From C68: in every rule of the lenient grammar the brackets match; induction on derivations. |
| C70 Annotations of test texts point where they are drawn | `TestUtils/Annotations*`: the map from line lengths to line starts refines a search for the last line with room; invariant over the lines. |
| C71 Tagged ranges of test texts are found and removed | `TestUtils/Tags*`: specification by documents and their rendering; induction on documents with the stack generalised. |
| C72 A test fixture yields the files it describes | `TestUtils/Fixture`: violated for every text, by induction on the lines.  Partial: a fixture is refused exactly for malformed metadata; and, in `TestUtils/ChangeFixture`, for arbitrary entries the database made of them is the described one, by an invariant of the loop. |
| C73 The server searches the directories the client names | `Project/Startup*`: relations between URLs and directories as specification; reuses C42 for discovery. |
| C74 The extension runs the configured executables or those of the platform | `Editor/Bootstrap*`: violated, witness release on Windows and a theorem for the fixed server path.  Partial theorem by the first matching asset. |
| C75 A failed download is repeated as long as the user asks | `Editor/Bootstrap*`: induction on the answers; specification by the first attempt that ends the dialog. |
| C76 Closing a document clears its diagnostics | `Server/Closed`: violated.  Invariant: no work on its way concerns the file; over all histories after the close.  Universal negative theorem and partial theorem. |
| C77 No message ends the server | `Server/Crash`, `Edits/Exact`: violated.  An exact characterisation of the messages that end it, after every conforming history; the characterisation of impossible changes by an independent reading of positions. |
| C78 A position past the end of a line means the end of the line | `Edits/Clamp`, `Edits/Exact`: violated, for every text.  Partial theorem for positions within lines; exact theorem for all ranges. |
| C79 Classes and choices of the typed tree have the traits they can provide | `AstGen/Traits`: violated for classes with equal accessor names.  Induction over the table of traits, whose rows are shown to be disjoint; counting lemma; choices by induction on the alternatives. |
| C80 A token is spelled as its kind says | `Lexer/Spelling`, `Ast/Spelling`: an explicit description of the texts of each kind; both directions and uniqueness, lifted to the tokens of trees and the token accessors.  Violated for byte strings outside ASCII, witness. |
| C81 Handlers of the extension are never registered twice | `Editor/ActivateModel`, `Editor/Activate`: state machine of activation, events, checks and reloads; invariant that the registrations are exactly those of the subscriptions and determined by a three-valued status. |
| C82 A change of the settings or of a project reloads the extension | `Editor/Activate`: violated, for all histories after a failed activation and by a witness during one.  Partial theorem: exactly when a call begins a new activation. |
| C83 Every error node of a syntax tree is reported | `Parser/ErrorEvents`, `Parser/ErrorGrammar`, `Parser/ErrorNodes`, `Ast/Structure`: every grammar function emits an error event directly behind the start of each error node (induction on the call depth, generated case per function); the sink keeps the position within the node; lifted to all nodes of the tree. |
| C84 The tree of a file without errors follows the grammar at every node | `Ast/Structure`: induction on the path to the node, from the derivation of the file (C68). |
| C85 The typed tree finds the parts of a file without errors | `Ast/Accessors`: violated for every file with a function or a script; inversion of the grammar rules.  Partial theorems for the accessors that work. |
| C86 The first syntax error is not reported late | `Parser/Viable*`, `Parser/FirstError`: the viable prefix property of a hand-written recursive descent parser.  A weakest-precondition calculus over grammar programs whose claim is "either no error was emitted and the tokens taken derive the symbol, or an error was and the tokens in front of it begin a derivation"; one lemma per grammar function; the offset of the first error through the tree builder. |
| C87 A closing bracket that does not fit is reported at once | `Parser/ViableProps`: from C86; in every derivation brackets are nested, so beginnings of derivations fit. |
| C88 No schedule of the threads makes the server hang | `Server/ThreadsModel`: the main loop, the workers, the lock around the file store (a waiting writer keeps new readers out), snapshots, cancellation, the queue and the channel as a transition system; the main thread executes a list of lock operations.  `Server/Threads`: invariant (lock discipline of the remaining operations), progress by cases on what each thread waits for, and a measure that every step decreases. |
| C89 Threads do not disturb each other, and stopping waits for them | `Server/Threads`: from the invariant of C88. |
| C90 The requests of the server and the answers of the client match | `Server/OwnRequests`: induction on the history; every step keeps the requests sent and removes the answered ids from those that wait. |
| C91 The active workspace is that of the document visited last | `Editor/Active`: violated (witness with two folders); invariant that the active workspace has an entry; the sequential case by cases on the state. |
| C92 Paths relative to a file | `resolve_path` on top of the path models of C19 and C20.  The specification is a walk through the directory tree; normalisation of the joined path is shown to be that walk.  Violations by evaluation. |
| C93 Every route answers its requests once | `Server/DispatchModel`, `Server/Dispatch`: the dispatcher with arbitrary routes, the pool and the main loop; by an invariant over all orders of requests, cancellations and ends of tasks. |
| C94 The metadata of a project is what the command printed | `Editor/DoveModel`, `Editor/Dove`: a fold over the events of the process; decoding of each piece with the model of UTF-8 decoding of C43, whose inverse on encoded texts is proved in `Stdx/Utf8`.  Violations by evaluation. |
| C95 The classes generated from a grammar read trees as the grammar says | `AstGen/GenModel`, `AstGen/Generated`: the generated items as values and functions that say what the items do; lookups by distinct names, on top of the lowering of C49 and C64. The committed files by evaluation of the generator on the committed grammar. |
| C96 A Move document is sent to the server of its folder only | `Editor/SelectorModel`, `Editor/Selector`: the document selector, and a model of the pattern matcher of the editor: patterns compiled to regular expressions; induction over the path of the folder. Violations: nested folders, the root, brackets and `?` in general (`Editor/SelectorWild`: a folder whose path is read as a pattern gets the Move files of the folders that the pattern stands for), other special characters by evaluation. |
| C97 On Windows, file sets tell paths apart exactly as the file system does | `Paths/WindowsModel`, `Paths/Windows`: the loop over the components and the encoding of the prefixes; texts joined by separators that do not occur in them are injective, also as prefixes; case analysis over pairs of prefixes. |
| C98 A valid definition in front of a text does not change what is reported about the text | `Shift`, `Front`: two runs of the same function from the same tokens, one with more finished nodes and more lookups in front; every function of the grammar keeps them in step.  The acceptance proofs of C57 read the file in front. |
| C99 A syntax error never says that something is missing that stands there | `MissingSpec`, `Said`, `MissingGrammar`, `Missing`: a check of every function of the grammar that each message is right about the current token; the run keeps the tokens and messages in order, and the tree builder reports a message where the tokens read so far end.  That each message occurs: by evaluation. |
| C100 Documents are known by their URIs | `Urls`: `abs_path`, `vfs_path`, `url_from_abs_path` with percent-encoding and the conversion between URLs and paths.  Decoding inverts encoding byte by byte; paths by the walk of C19.  The spelling of a URI is a relation in `Spec`; that the published URI is the opened one is equivalent to it.  Counterexamples by evaluation. |
| C101 Synchronising as announced is safe | `Announced`: the capabilities of `caps.rs` and the messages they allow.  Changes without ranges are edits of the protocol, so that the histories are those of C08-C10; what the client sent last is a fold over the history. |
| C102 The progress of a download is true | `ProgressModel`: pieces of data arrive, the percentage is reported when it changes.  Invariant: label and bar are the percentage of what was read.  Counterexamples for missing and wrong lengths. |
| C103 Absolute paths stay absolute | `Paths/AbsModel`: `AbsPath`, `AbsPathBuf` and `ManifestPath` over `join`, `parent`, `pop` and comparisons of `std::path` as documented.  A path leads along the segments that are neither empty nor a dot (`Lies`); each operation is described by what it does to these names. |
| C104 Tokens do not depend on other lines | `Lexer/Lines`: the first token of a text that starts with neither whitespace nor a comment is unchanged by what is added behind a newline; induction over the text for joining and splitting, then over the lines. |
| C105 What is commented out is not seen by the server | `Editor/Comments`: the markers of `language-configuration.json`; the command is a relation between lines.  Line comments by C104.  Block comments by C34 (a stray token) and C98 (behind definitions). |
| C106 What is written below does not change what is reported above | Lockstep of two runs of any grammar program on the model of parser.rs: as long as common tokens are left, all answers are equal; the events of tokens and messages are never taken back (`Parser/Stable`).  The tree sink stands in front of a token exactly if the parser has not read it, which relates offsets to the number of tokens read (`Parser/StableProps`). |
| C107 Names, literals and comments do not change the syntax tree | `Parser/Rename`: of the text of a token the grammar sees whether a number starts with `0x` (`Parser/Blind`, one lemma per function of the grammar), so the runs on both token lists make the same calls; the sinks are then led side by side, with positions as numbers of tokens. |
| C108 The version names the commit that was built | `Build/Version`: the build script, and git and cargo as far as their documentation says what they do with `.git/HEAD` and the `rerun-if` lines.  Violated; the partial theorems are invariants over all histories. |
| C109 The linearity check accepts linear measurements and no others | `TestUtils/Linear`: the regression over rationals (a division by zero is a case of its own).  The fit commutes with affine changes of the second coordinate, which gives lines and large constants; closed forms of the sums for squares.  Violated. |
| C110 Typed tokens are what they look like | `Ast/Tokens`: the classes of `tokens.rs`; with the spelling of tokens (C80) the first two characters of a token decide its class.  Violated for hexadecimal strings. |
| C111 The exit status tells how the session ended | `Server/Process`: `main`, `setup_logging` and `run_server` around the start (C73) and the main loop (C25), whose theorems give the cases.  Violated for `exit` without `shutdown`. |
| C112 The log does not disturb the protocol and contains what was asked for | `Server/Process`: what the program does is a list of records and messages made without looking at the logger; the logger then distributes it.  The second half is violated. |
| C113 The tasks of the extension run what they say | `Editor/Tasks`: the provider, registered once per started client (C46, C62).  Violated for tasks with arguments. |
| C114 Process output is delivered on Windows too | `Stdx/ProcessWindows`: the loop over completions, with the callback and the invariant of C43 per pipe.  Violated for a last line without newline. |
| C115 The prepared file sets contain the sources of a package | `Loader/Prepared`: the constructors of `Entry`, on the filter of C21.  Violated; the exact contents are proved. |
| C116 The generator keeps the generated files up to date | `AstGen/UpToDate`: the calls in sequence over a map of files; induction over the list of files, then over the runs. |
| C117 What the editor shows about a document is about its text | `Pipeline/Shown`: the theorems on the event loop (C26, C28), the parser (C56, C69, C86, C87), the diagnostics (C23) and line ends (C11) are composed; new is that converting line ends moves no position. |
| C118 What the workers answer belongs to the contents that are there | `Server/ThreadsAnswers`, on the transition system of C88: an invariant on the queries under computation, induction over the run from its end for the age of the answers, an invariant on the remaining operations of the main thread (every change is announced just before). |
| C119 The log blames the client for exactly what it did wrong, and does not repeat documents | `Server/Logged`: the dispatch of messages by their methods, with the records it makes; a simulation into `Verif.Server`, an invariant relating the open documents to the history, and a comparison of two runs for the texts. |
| C120 The log has one line for each error, and a line tells what it is about | `Server/LogLines`: the text of each record, with the escapes of `{:?}` and the decoding of paths; no piece has a line break, by induction over digits and bytes. |
| C121 The token for GitHub goes to GitHub only, and is used | `Editor/Token`: the effects of obtaining a binary, in order, for any answers of network and user; induction over the answers of the user, and a comparison of two runs. |
| C122 The tree and the diagnostics of a text are in proportion to it | `Parser/SizeGrammar.lean`, `Parser/Size.lean`. Every lookup and every consumed token pays for three nodes or messages; `Cost` is checked for every function of the grammar (`body_cost`) and proved sound for runs on tokens (`Cost.sound`). The lookups are bounded by the check of C34 for at most 907 tokens and by the limit of the parser for more. Proved: nodes and errors together are at most `36 n + 55` for `n` tokens, so that a broken text cannot make the server build more than a fixed multiple of it. |
| C123 Whitespace and comments around a construct are not part of its node | `Parser/EdgesWalk.lean`, `Parser/Edges.lean`. An invariant of the tree sink over the calls it gets: in every open node but the root the first token is significant, the last element is not trivia, and as long as the node has no token the next token of the text is not trivia. Induction over the calls of `event::process`; that only the first of them can be for trivia comes from the alignment of C30. |
| C124 The trace of the extension follows its setting | `Editor/TraceModel.lean`, `Editor/Trace.lean`, on top of the model of activation and reload (C81, C82). Histories of changes of the setting, events of the editor and messages of the extension; induction over the history shows that tracing is on exactly if the setting was on when the latest activation began. |
