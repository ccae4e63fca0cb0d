{"id": "C01", "title": "The syntax tree never invents, reorders or duplicates source text", "statement": "For every source text, the concatenated text of the tree returned by Parser::parse is a prefix of the source: tree text followed by some dropped remainder is exactly the source.", "quantifier": "all source texts (any finite sequence of Unicode scalar values, well-formed or not)", "why_tests_cant": "Snapshot tests compare tree text and source on ~40 fixtures; error recovery has unboundedly many interleavings of backtracking, skipped tokens and missing delimiters.", "anchors": ["crates/parser/src/parser/mod.rs: Parser::parse_to_green, root, retry, retry_once, must", "crates/parser/src/parser/token.rs", "crates/parser/src/parser/instr.rs", "crates/parser/src/parser/ty.rs", "crates/parser/src/parser/module.rs"]}
{"id": "C02", "title": "The syntax tree is lossless", "statement": "For every source text the text of the returned tree equals the source; no byte is dropped even when the source is malformed.", "quantifier": "all source texts", "why_tests_cant": "The fixtures never contain a form feed, a lone carriage return in a string or a string ending in a dangling escape; only a proof over all texts shows which inputs lose text.", "anchors": ["crates/parser/src/parser/mod.rs: root, Parser::parse_to_green", "crates/parser/src/parser/token.rs: error_token, string_impl, ws"]}
{"id": "C03", "title": "Parsing terminates with a tree and never panics", "statement": "Parser::parse returns a tree for every source text: it neither loops, nor panics, nor reaches the expect in parse_to_green.", "quantifier": "all source texts, both build profiles", "why_tests_cant": "Non-termination and panics live in rare interleavings of repetition combinators that succeed without consuming input; a finite corpus cannot exclude them.", "anchors": ["crates/parser/src/parser/mod.rs: parse_to_green, retry, retry_once", "crates/parser/src/parser/token.rs: r_paren, block_comment_impl, error_term_inner", "crates/parser/src/parser/instr.rs: instr"]}
{"id": "C04", "title": "Every reported syntax error has a well-formed range inside the document", "statement": "Each syntax error has start <= end and both offsets lie within the source and on character boundaries.", "quantifier": "all source texts and all errors reported for them", "why_tests_cant": "An error's start and end are stamped at different moments of backtracking; whether they can end up reversed or out of bounds depends on every path through the grammar.", "anchors": ["crates/parser/src/error.rs: from_recoverable_error, add_context", "crates/parser/src/parser/mod.rs: retry, must", "crates/parser/src/parser/token.rs: r_paren"]}
{"id": "C05", "title": "Text the parser could not understand is never silently accepted", "statement": "If parsing reports no syntax error then the tree contains no error token.", "quantifier": "all source texts", "why_tests_cant": "Requires relating the set of recorded errors with the tree over all recovery paths, including errors recorded in branches that were later abandoned.", "anchors": ["crates/parser/src/parser/mod.rs: root, retry, retry_once", "crates/parser/src/parser/token.rs: error_token, error_term, r_paren"]}
{"id": "C06", "title": "Every token's text fits its kind", "statement": "In every tree, each token is non-empty and spelled as its kind promises: identifiers are '$' plus at least one identifier character, keywords/instruction names start with a lower-case letter followed by identifier characters, whitespace tokens hold only blanks, line comments start with ';;' and hold no line feed, block comments are delimited by '(;' and ';)', value types are one of the seven names, parens are single characters.", "quantifier": "all source texts, all tokens at any depth of the resulting tree", "why_tests_cant": "Downstream features (rename, hover, formatter) rely on it for tokens produced on error-recovery paths that fixtures do not reach.", "anchors": ["crates/parser/src/parser/token.rs", "crates/parser/src/parser/ty.rs: val_type, ref_type, heap_type", "crates/parser/src/parser/instr.rs: instr_name, mem_arg"]}
{"id": "C07", "title": "Offset/position conversion round-trips", "statement": "Converting any character-boundary offset of a document to an editor position and back yields the same offset; distinct offsets get distinct positions and document order is preserved.", "quantifier": "all documents and all offsets in them", "why_tests_cant": "Ranges over every placement of newlines and multi-byte characters.", "anchors": ["crates/service/src/helpers.rs: lsp_pos_to_rowan_pos, rowan_pos_to_lsp_pos, rowan_range_to_lsp_range", "crates/service/src/files.rs: line_index"]}
{"id": "C08", "title": "A request at any position of a known document is answered without crashing", "statement": "For every committed document and every client-supplied position (line, character), position-based requests (hover, definition, references, rename, completion, call hierarchy) do not panic; positions past the end of a line are clamped or ignored.", "quantifier": "all documents, all positions, all range endpoints", "why_tests_cant": "Only a handful of in-range cursor positions are tested; the crash needs an out-of-range column on the last lines or a reversed range.", "anchors": ["crates/service/src/helpers.rs: lsp_pos_to_rowan_pos", "crates/service/src/features/hover.rs", "crates/service/src/features/semantic_tokens.rs: semantic_tokens_by_range"]}
{"id": "C09", "title": "Columns follow the protocol's default UTF-16 unit", "statement": "Positions sent to the client count UTF-16 code units as the protocol prescribes when no position encoding is negotiated.", "quantifier": "all documents and offsets", "why_tests_cant": "Fixtures are ASCII only.", "anchors": ["crates/service/src/helpers.rs: rowan_pos_to_lsp_pos", "crates/service/src/lib.rs: initialize"]}
{"id": "C10", "title": "Go-to-definition only returns matching declarations in scope", "statement": "Every location returned by go-to-definition for a reference is the declaration of a symbol of the right kind (function, local/parameter, type, global, memory, table, block) whose index matches the reference's name or number, located in the same module (or function, or enclosing block) as the reference.", "quantifier": "all documents, all cursor positions", "why_tests_cant": "Name resolution ranges over all nestings of modules, functions and blocks, and over name/number mixes; tests fix a few.", "anchors": ["crates/service/src/features/definition.rs", "crates/service/src/binder.rs: SymbolTable::find_param_or_local_def, find_defs, find_block_def", "crates/service/src/idx.rs: Idx::is_defined_by"]}
{"id": "C11", "title": "Definition and references are dual", "statement": "For non-block symbols, a reference r is listed among the references of declaration d exactly when d is listed among the definitions of r.", "quantifier": "all documents, all pairs of symbols", "why_tests_cant": "A relation between two features over all documents; each feature is only tested separately.", "anchors": ["crates/service/src/features/references.rs", "crates/service/src/features/definition.rs", "crates/service/src/binder.rs"]}
{"id": "C12", "title": "Numeric indices resolve in the WebAssembly index spaces", "statement": "A numeric index n used as a function (type, global, memory, table) index resolves to the n-th function (type, global, ...) of its module, imports included, counting only entities of that kind.", "quantifier": "all modules, all numeric references", "why_tests_cant": "Needs arbitrary mixes and orders of field kinds; tests use modules with a single kind or named references.", "anchors": ["crates/service/src/binder.rs: create_symbol_table", "crates/service/src/idx.rs"]}
{"id": "C13", "title": "A local index resolves to the n-th parameter or local of its function", "statement": "Inside a function, numeric local index n resolves to the n-th declared parameter-or-local, parameters first, where an unnamed group (param i32 i64) counts one per type; and resolution never leaves the function.", "quantifier": "all functions, all numeric local references", "why_tests_cant": "Depends on every mix of grouped and named declarations.", "anchors": ["crates/service/src/binder.rs: create_symbol_table (PARAM, LOCAL)", "crates/service/src/binder.rs: get_declared_params_and_locals"]}
{"id": "C14", "title": "Branch labels resolve to the innermost enclosing block", "statement": "A numeric label k resolves to the k-th enclosing block counted outwards from the branch; a named label to the innermost enclosing block with that name.", "quantifier": "all nestings of blocks, all branch instructions", "why_tests_cant": "Ranges over arbitrary nesting depth, shadowed labels and folded/unfolded forms.", "anchors": ["crates/service/src/binder.rs: find_block_def, BlockRef handling"]}
{"id": "C15", "title": "An undefined reference is reported exactly when nothing defines it", "statement": "A reference (call, local, global, type, memory, table, branch) gets an 'undefined' diagnostic iff the document declares no symbol in scope that go-to-definition could return for it.", "quantifier": "all documents, all references", "why_tests_cant": "Iff over all documents; tests only show selected positives and negatives.", "anchors": ["crates/service/src/checker/undef.rs", "crates/service/src/binder.rs"]}
{"id": "C16", "title": "Duplicate names are reported exactly for repeated names of one kind in one scope", "statement": "A declaration is reported as duplicated iff another declaration of the same name space and the same scope has the same name.", "quantifier": "all documents", "why_tests_cant": "Depends on all combinations of kinds, scopes and block nesting.", "anchors": ["crates/service/src/checker/dup_names.rs"]}
{"id": "C17", "title": "Every module after the first is reported, nothing else", "statement": "The multiple-modules check reports exactly the second and later modules of a document and reports nothing when there is at most one.", "quantifier": "all documents with any number of modules", "why_tests_cant": "Unbounded number of modules with arbitrary junk between them.", "anchors": ["crates/service/src/checker/multi_modules.rs"]}
{"id": "C18", "title": "Rename changes all and only the occurrences of the symbol", "statement": "The edits returned by rename are exactly the identifier tokens of the symbol under the cursor (its declaration and the references resolving to it), each replaced by the new name; nothing else in the document changes.", "quantifier": "all documents, cursor positions and new names", "why_tests_cant": "A rename that touches an unrelated symbol needs a document where another named symbol shares the scope; the quantifier is over all documents.", "anchors": ["crates/service/src/features/rename.rs"]}
{"id": "C19", "title": "Rename accepts exactly valid identifiers", "statement": "Rename is rejected unless the new name is '$' followed by at least one identifier character and nothing else; accepted names lex as a single identifier token.", "quantifier": "all candidate names", "why_tests_cant": "All strings.", "anchors": ["crates/service/src/features/rename.rs: rename", "crates/parser/src/parser/token.rs: is_id_char, ident"]}
{"id": "C20", "title": "Rename edits never overlap and stay inside the document", "statement": "All edits of one rename are on pairwise disjoint identifier tokens inside the document, so applying them in any order gives the same text.", "quantifier": "all documents, positions, names", "why_tests_cant": "Needs all symbol tables.", "anchors": ["crates/service/src/features/rename.rs", "crates/service/src/binder.rs"]}
{"id": "C21", "title": "Selection ranges are nested and reach the whole document", "statement": "The answer holds exactly one chain of ranges per position asked for, in order. In each chain every range lies inside its parent range, and the outermost range is the whole document.", "quantifier": "all documents, all positions", "why_tests_cant": "All trees and positions.", "anchors": ["crates/service/src/features/selection_range.rs"]}
{"id": "C22", "title": "Folding ranges are proper", "statement": "Every folding range starts on an earlier line than it ends on, corresponds to a syntax construct, and any two folding ranges are either nested or disjoint.", "quantifier": "all documents", "why_tests_cant": "All trees.", "anchors": ["crates/service/src/features/folding_range.rs"]}
{"id": "C23", "title": "Semantic tokens decode to the real tokens", "statement": "Decoding the delta-encoded semantic token stream yields exactly the positions and lengths of the highlighted source tokens, in order, non-overlapping.", "quantifier": "all documents, all client token-type capabilities, full and range requests", "why_tests_cant": "Errors appear only for tokens that span lines or for unsupported kinds; the property ranges over all token layouts.", "anchors": ["crates/service/src/features/semantic_tokens.rs"]}
{"id": "C24", "title": "Semantic token types agree with the announced legend", "statement": "The type index sent with every token is the index, in the legend announced at initialization, of the token type chosen for its kind.", "quantifier": "all client capability lists, all tokens", "why_tests_cant": "All capability lists (with repetitions, unknown types, any order).", "anchors": ["crates/service/src/lib.rs: initialize", "crates/service/src/features/semantic_tokens.rs"]}
{"id": "C25", "title": "Document symbols are exactly the declarations, well nested", "statement": "The document symbols are one entry per module that declares something, below it one entry per declared or imported function, type, global, memory and table in order, below a function one entry per local, each with the declaration's name (or number), kind and range. Every selection range lies in its entry's range, and the children of an entry lie in its range one after the other.", "quantifier": "all documents", "why_tests_cant": "The tree is built by removing and re-inserting entries of a hash map in reverse order; only a proof covers all orders and all trees.", "anchors": ["crates/service/src/features/document_symbol.rs"]}
{"id": "C26", "title": "Incoming and outgoing calls are dual", "statement": "Function g is listed among the outgoing calls of f iff f is listed among the incoming calls of g, with the same call-site ranges.", "quantifier": "all documents, all pairs of functions", "why_tests_cant": "A relation between two requests over all documents.", "anchors": ["crates/service/src/features/call_hierarchy.rs"]}
{"id": "C27", "title": "Inlay hints stay in the requested range and name the real declaration", "statement": "Every inlay hint lies in the requested range and shows the name/type of the entity the index resolves to.", "quantifier": "all documents, all ranges", "why_tests_cant": "All documents and ranges.", "anchors": ["crates/service/src/features/inlay_hint.rs"]}
{"id": "C28", "title": "Splitting and joining parameter declarations preserves the signature", "statement": "Applying the 'split to multiple declarations' or the 'join' code action leaves the function signature (ordered parameter names and types, ordered result types) unchanged, and the result has no new syntax errors.", "quantifier": "all signatures, all selected ranges", "why_tests_cant": "All parameter lists with names, comments and errors.", "anchors": ["crates/service/src/refactorings/func_header_split.rs", "crates/service/src/refactorings/params_join.rs", "crates/service/src/types_analyzer.rs: extract_sig"]}
{"id": "C29", "title": "The memory-argument fix only deletes blanks", "statement": "The 'fix memory argument' quick fix deletes only whitespace, and the text left is the same token sequence glued together.", "quantifier": "all documents, all positions", "why_tests_cant": "All token layouts.", "anchors": ["crates/service/src/refactorings/fix_invalid_mem_arg.rs"]}
{"id": "C32", "title": "Function signatures render injectively", "statement": "The rendered header of a function signature determines the signature: parameters (names and types) and results in order.", "quantifier": "all signatures", "why_tests_cant": "All lists of parameters and results.", "anchors": ["crates/service/src/types_analyzer.rs: FuncSig Display, extract_sig"]}
{"id": "C33", "title": "Comment formatting is idempotent and content preserving", "statement": "Formatting a line or block comment with formatComments enabled changes blanks only, keeps the delimiters, and formatting again changes nothing.", "quantifier": "all comment texts", "why_tests_cant": "All texts.", "anchors": ["crates/formatter/src/printer/mod.rs: format_line_comment, format_block_comment"]}
{"id": "C34", "title": "Formatting preserves the program", "statement": "The non-trivia token sequence of formatted output is the token sequence of the input (no token lost, added or reordered).", "quantifier": "all syntactically valid documents, all option values", "why_tests_cant": "All documents.", "anchors": ["crates/formatter/src/printer/module.rs", "crates/formatter/src/printer/ty.rs", "crates/formatter/src/printer/instr.rs"]}
{"id": "C35", "title": "An ignored module or field is reproduced verbatim", "statement": "A module, or a field of a module, right after a line with the ignore comment is printed with its original text; only its line breaks are written in the layout's way, and a line break at its very end is dropped.", "quantifier": "all documents, all directives, all layouts", "why_tests_cant": "All texts of nodes.", "anchors": ["crates/formatter/src/printer/mod.rs: should_ignore, reflow", "crates/formatter/src/printer/module.rs: Module"]}
{"id": "C36", "title": "Answers depend only on the latest text", "statement": "After any sequence of document commits (to any documents, in any order, interleaved with queries), every query answers exactly as a fresh service that was only given the latest text of each document.", "quantifier": "all histories of commits and queries", "why_tests_cant": "Incremental caches with early cut-off equality can go stale only on particular histories; finite histories in tests cannot settle it.", "anchors": ["crates/service/src/files.rs", "crates/service/src/binder.rs: SymbolItem PartialEq/Hash", "crates/service/src/types_analyzer.rs", "crates/service/src/lib.rs: commit"]}
{"id": "C37", "title": "Every request gets exactly one response with its id", "statement": "The server sends exactly one response for each request, carrying the request's id, in order of arrival; notifications get none.", "quantifier": "all message sequences", "why_tests_cant": "All sequences of messages including malformed and unknown ones.", "anchors": ["crates/server/src/server.rs: run, handle_request, handle_notification"]}
{"id": "C38", "title": "Published diagnostics describe the latest text", "statement": "After each open/change notification the diagnostics published for that document are those of its new text; after close the list is empty; clients that pull diagnostics get none pushed.", "quantifier": "all notification sequences and client capabilities", "why_tests_cant": "All histories.", "anchors": ["crates/server/src/server.rs"]}
{"id": "C39", "title": "Completion offers exactly the names in scope", "statement": "For an index operand, completion offers every declared entity of the expected kind in the enclosing function/module and no other.", "quantifier": "all documents, positions", "why_tests_cant": "All documents.", "anchors": ["crates/service/src/features/completion.rs: get_cmp_list, add_cmp_ctx_for_operands"]}
{"id": "C40", "title": "Literal operands are checked exactly", "statement": "A const instruction gets a diagnostic iff its literal operand is not of the right lexical class or out of the range of its type.", "quantifier": "all literals", "why_tests_cant": "All literal spellings.", "anchors": ["crates/service/src/checker/literal_operands.rs"]}
{"id": "C41", "title": "Identifiers may use every identifier character of the text format", "statement": "A '$' followed by one or more identifier characters of the WebAssembly text format is read as one identifier token.", "quantifier": "all identifiers over the standard's identifier characters, in any surrounding text", "why_tests_cant": "The fixtures use alphanumeric names; the claim is about every character of a class and every combination of them.", "anchors": ["crates/parser/src/parser/token.rs: is_id_char, ident"]}
{"id": "C42", "title": "Value types in the tree are always one of the seven value types", "statement": "Every value-type node of a parsed tree holds exactly one token, spelled as one of the seven value types, so reading the type of a parameter, result or local can never hit the unreachable branch and crash.", "quantifier": "all source texts, all value-type nodes at any depth of the resulting tree", "why_tests_cant": "A crash would need a value-type node built on some error-recovery path; only an invariant over all paths excludes it.", "anchors": ["crates/parser/src/parser/ty.rs: val_type", "crates/service/src/types_analyzer.rs: ValType::from", "crates/syntax/src/ast/ty.rs: ValType"]}
{"id": "C43", "title": "Every syntax tree conforms to the tree schema", "statement": "For every source text, also on every error-recovery path, each node of the tree returned by the parser has only children of the kinds the grammar allows below it, starts with a token or with a node kind of smaller rank, is not empty (except the file and a `then` part), and modules occur at the top level only.", "quantifier": "all source texts, all nodes at any depth", "why_tests_cant": "Consumers of the tree assume its shape on malformed input too; the combinations of recovery points at all depths are unbounded.", "anchors": ["crates/parser/src/parser/mod.rs", "crates/parser/src/parser/module.rs", "crates/parser/src/parser/instr.rs", "crates/parser/src/parser/ty.rs", "crates/syntax/src/ast"]}
{"id": "C44", "title": "A named reference finds all and only the declarations of that name", "statement": "With the cursor on a reference by name to a function, type, global, memory or table, go-to-definition answers with exactly the identifiers of the declarations of that name and kind (imports included) in the module around the reference: none is missing, none is from another module or name space.", "quantifier": "all documents, all cursor positions on named references to module-level entities", "why_tests_cant": "Documents combine any number of modules, duplicated names, names shared between name spaces, and malformed fields; tests sample single modules.", "anchors": ["crates/service/src/binder.rs", "crates/service/src/features/definition.rs"]}
{"id": "C45", "title": "Diagnostics are collected without a crash, at places of the document", "statement": "For every document that is parsed, pulling or publishing diagnostics returns a list and does not crash; every diagnostic that is not a syntax error, and every range related to it, is the range of a node or token of the document's tree.", "quantifier": "all source texts (any Unicode text, however broken), both parser build modes, all diagnostics reported", "why_tests_cant": "The checkers walk every node of trees produced by error recovery, follow keys back to nodes, unwrap value types and convert byte offsets to positions; each step can panic for a shape no fixture contains (an empty value type, a key that matches two nodes, an offset inside a multi-byte character).", "anchors": ["crates/service/src/checker/mod.rs:11-56", "crates/service/src/checker/typeck.rs:23-318", "crates/service/src/checker/dup_names.rs:14-166", "crates/service/src/types_analyzer.rs:60-183", "crates/service/src/files.rs:38-53", "crates/service/src/helpers.rs"]}
{"id": "C46", "title": "The references of a label are the branches to it", "statement": "With the cursor on a block, find-references lists exactly the branch operands that resolve to that block (and the block itself when declarations are asked for); on a branch operand it lists the same as on the block it resolves to.", "quantifier": "all documents, all blocks, all branch operands", "why_tests_cant": "Needs all nestings of blocks and branches.", "anchors": ["crates/service/src/features/references.rs: get_block_refs", "crates/service/src/binder.rs: blocks"]}
{"id": "C47", "title": "Renaming is offered exactly on identifiers", "statement": "Prepare-rename answers with a range exactly when the cursor is on an identifier, and then with the range of that identifier; a rename to a valid name is refused exactly when the cursor is not on an identifier.", "quantifier": "all documents, cursor positions and names", "why_tests_cant": "All token kinds at all cursor positions.", "anchors": ["crates/service/src/features/rename.rs: prepare_rename, rename"]}
{"id": "C48", "title": "What is known about an instruction is what the standard says", "statement": "For every instruction name, the binary opcode shown on hover and the operand and result types used by the type checker are those of the instruction of that name in the WebAssembly standard; every plain instruction of the standard's MVP, sign-extension, bulk-memory, reference-type and vector lists is known; different instructions are shown with different opcodes.", "quantifier": "all instruction names, all entries of both tables", "why_tests_cant": "424 entries written by hand; a single swapped type or digit shows only for that instruction.", "anchors": ["crates/service/src/data_set/instr_meta.rs", "crates/service/src/features/hover.rs:160-172"]}
{"id": "C49", "title": "Local indices follow the standard when parameters come from a type", "statement": "Go-to-definition on a numeric local index k answers with the k-th of the function's parameters and locals, where the parameters are those written with the function or, if none are, those of the type the function names.", "quantifier": "all functions with or without a type use, all numeric local references", "why_tests_cant": "Depends on every combination of type uses, parameters and locals.", "anchors": ["crates/service/src/binder.rs: create_symbol_table (PARAM, LOCAL)", "crates/service/src/binder.rs: get_declared_params_and_locals"]}
{"id": "C50", "title": "Go to declaration answers for function calls as go to definition does", "statement": "Go-to-declaration has an answer only with the cursor on the operand of an instruction that refers to a function, and there the answer is that of go-to-definition.", "quantifier": "all documents and cursor positions", "why_tests_cant": "All kinds of nodes and references at all cursor positions.", "anchors": ["crates/service/src/features/definition.rs:126-162"]}
{"id": "C51", "title": "Go to type definition leads to the types of the functions referred to", "statement": "With the cursor on an operand of an instruction that resolves to functions declared with (type ...), go-to-type-definition answers with exactly the type declarations these type uses resolve to; elsewhere there is no answer.", "quantifier": "all documents and cursor positions", "why_tests_cant": "Two resolutions in a row over any combination of declarations, names and numbers.", "anchors": ["crates/service/src/features/definition.rs:74-124"]}
{"id": "C52", "title": "Formatting never panics", "statement": "Building the document to print for a source text, and for the node picked by a range that does not end before it begins, never panics, whatever syntax errors the text has, for all options; and the document can be laid out.", "quantifier": "all source texts, all options, all ranges", "why_tests_cant": "The two expect() calls on comment tokens rest on what the lexer can produce for any text.", "anchors": ["crates/formatter/src/printer/mod.rs: format_line_comment, format_block_comment", "crates/formatter/src/lib.rs: format, format_range", "crates/service/src/features/formatting.rs"]}
{"id": "C53", "title": "Formatting edits replace what was formatted", "statement": "Applying the edit answered to a formatting request gives exactly the printed document. The edit answered to a range formatting request replaces one node, the innermost that encloses the range, by the print of that node, and leaves the rest of the document unchanged.", "quantifier": "all documents, all ranges inside them", "why_tests_cant": "All trees and ranges.", "anchors": ["crates/service/src/features/formatting.rs", "crates/formatter/src/lib.rs: format_range"]}
{"id": "C54", "title": "Error-free documents parse into derivation trees of the grammar", "statement": "When parsing reports no syntax error, the tree is a derivation of the text-format grammar: the children of every node, white space and comments left out, are those of one production of the node's kind, in order; nothing of the source is dropped, and every line comment is ended by a new line or by the end of the document.", "quantifier": "all source texts", "why_tests_cant": "Snapshot tests show the trees of some hundred inputs; that no accepted input yields a node with a missing, doubled or misplaced child is a claim about all inputs, and every later feature (formatter, symbol table, checker) reads children by kind and relies on it.", "anchors": ["crates/parser/src/parser/module.rs", "crates/parser/src/parser/instr.rs", "crates/parser/src/parser/ty.rs", "crates/parser/src/parser/mod.rs"]}
{"id": "C55", "title": "Hover shows the entity that is denoted, with its signature and documentation", "statement": "Hovering an index, or the name or keyword of a declaration, shows exactly the declaration of the entity it denotes: kind, name, and its parameters, results, type or mutability as written (or as given by the type used), followed for functions by the documentation comments in front of them; hovering an instruction name or a number type shows it; elsewhere there is no hover, and no hover crashes at a position of the document.", "quantifier": "all documents, all cursor positions", "why_tests_cant": "The 31 snapshots fix the text for one document each; which declaration an index denotes depends on all declarations before it, and the documentation on any mix of comments and blank space in front of a function.", "anchors": ["crates/service/src/features/hover.rs: hover", "crates/service/src/types_analyzer.rs: render_func_header", "crates/service/src/helpers.rs"]}
{"id": "C56", "title": "Every program of the grammar is accepted, however it is laid out", "statement": "For every derivation tree of the text-format grammar and every text that consists of its tokens, with white space and complete comments wherever one likes, the parser reports no syntax error, drops nothing of the text, and builds that tree (white space and comments left out).", "quantifier": "all derivation trees of the grammar and all layouts of their tokens", "why_tests_cant": "Tests show that some hundred documents are accepted; that no combination of constructs, nesting depth, literal or layout makes the parser report a spurious error is a claim about infinitely many programs. A false syntax error makes every other feature work on a damaged tree.", "anchors": ["crates/parser/src/parser/module.rs", "crates/parser/src/parser/instr.rs", "crates/parser/src/parser/ty.rs", "crates/parser/src/parser/token.rs", "crates/parser/src/parser/mod.rs"]}
{"id": "C57", "title": "The formatted document is parsed into the same tree", "statement": "When a document without syntax errors is formatted, whatever the settings and the layout chosen by the printer, the result is parsed without syntax errors and its tree, white space and comments left out, is that of the original document.", "quantifier": "all documents without syntax errors, all formatter settings, all layouts of the printed document", "why_tests_cant": "Snapshot tests compare the output for some inputs; that formatting never changes what any program means is a claim about all programs, settings and line widths, and depends on the formatter and the parser together.", "anchors": ["crates/formatter/src/lib.rs", "crates/formatter/src/printer", "crates/parser/src/parser/mod.rs"]}
{"id": "C59", "title": "Formatting keeps every comment at its place", "statement": "The text the formatter prints shows the tokens and the comments of the document in their order, with nothing but blanks, tabs and line breaks before, between and after them; a comment is shown unchanged or, when comments are formatted, with at most a blank added inside its delimiters.", "quantifier": "all documents without syntax errors, all formatter settings, all layouts of the printed document", "why_tests_cant": "Comments may stand between any two tokens of any construct; the snapshot tests put comments at some of these places. Losing a comment is silent: the formatted program is still valid.", "anchors": ["crates/formatter/src/printer/module.rs", "crates/formatter/src/printer/ty.rs", "crates/formatter/src/printer/instr.rs", "crates/formatter/src/printer/mod.rs"]}
{"id": "C60", "title": "A document stays well-formed under renaming", "statement": "When a symbol of a document without syntax errors is renamed, the edited document has no syntax errors, and apart from white space and comments its tree is that of the original document with the new name at the edited places.", "quantifier": "all documents without syntax errors, all cursor positions, all new names the server accepts", "why_tests_cant": "The rename tests compare edits for a few documents and names; that no accepted name and no place of an edit ever changes how the rest of the document is read needs the whole grammar.", "anchors": ["crates/service/src/features/rename.rs", "crates/parser/src/parser/token.rs", "crates/parser/src/parser/mod.rs"]}
{"id": "C61", "title": "Find-references at a use lists the uses of the same declaration", "statement": "Asked on a use of a function, type, global, memory, table, parameter or local, find-references without the declaration lists a use exactly if go-to-definition on that use and on the one under the cursor have a location in common, and it lists nothing but uses of the same kind in the same module or function.", "quantifier": "all documents, all pairs of uses (by name or by number), all cursor positions on them", "why_tests_cant": "The tests ask for references in a few documents; mixed uses by name and by number, several modules and shadowed names form an unbounded set of pairs.", "anchors": ["crates/service/src/features/references.rs", "crates/service/src/features/definition.rs", "crates/service/src/binder.rs"]}
{"id": "C62", "title": "Asking find-references for the declaration adds exactly the declaration", "statement": "With includeDeclaration, find-references lists what it lists without, and besides exactly the locations go-to-definition has at that place if the cursor is on a use, and exactly the declaration under the cursor if it is on a declaration (of a module-level entity, a parameter, a local or a block).", "quantifier": "all documents, all cursor positions on a use or a declaration, all kinds of entities", "why_tests_cant": "The option changes one conjunct in each of a dozen filters; tests cover some kinds and a few documents each.", "anchors": ["crates/service/src/features/references.rs", "crates/service/src/features/definition.rs", "crates/service/src/binder.rs"]}
{"id": "C30", "title": "Folded instructions: arity check is exact", "statement": "For a folded instruction whose arguments are instructions and blocks of known types, a type error is reported iff the types of the arguments do not fit what the instruction takes (by the standard, or by the header of the function it calls).", "quantifier": "all documents and all folded instructions in them", "why_tests_cant": "All operand counts, types and nesting.", "anchors": ["crates/service/src/checker/typeck.rs: check_folded, resolve_type, resolve_expected_types"]}
{"id": "C31", "title": "Type checking of bodies agrees with the stack-typing rules", "statement": "A function body whose instructions and blocks all have known types gets no type diagnostic iff running these types on a type stack starting from empty never underflows or mismatches and ends with exactly the declared results.", "quantifier": "all documents and all bodies of functions and globals in them", "why_tests_cant": "Unbounded instruction sequences.", "anchors": ["crates/service/src/checker/typeck.rs: check_stacked, resolve_type, resolve_expected_types", "crates/service/src/data_set/instr_meta.rs"]}
{"id": "C58", "title": "Completion offers the instructions and keywords of the language", "statement": "Where the name of an instruction is being typed or an instruction may follow an opening parenthesis, completion offers the names of exactly the instructions of WebAssembly 2.0 as operators, each once; where only value types or only keywords are allowed (inside param, result, local and global types; after an opening parenthesis at document, module, type, import, export, table, memory and global level), it offers exactly these, each once; where a reference type stands it offers both; after the name of a load or store, and only there, it offers offset= and align=; after an opening parenthesis in a function, data segment, element segment or list of elements, the keywords it offers are exactly those that may follow there.", "quantifier": "all documents, all positions, all instruction names", "why_tests_cant": "The completion tests snapshot a few positions; no test compares the list of 252 names with the instruction set, and positions inside complete keywords are not tested.", "anchors": ["crates/service/src/features/completion.rs: get_cmp_ctx, get_cmp_list, find_leading_l_paren", "crates/service/src/data_set/mod.rs: INSTR_NAMES, VALUE_TYPES, MODULE_FIELDS, PORT_DESC"]}
{"id": "C63", "title": "Code actions are offered exactly where they apply", "statement": "For a selection in a document, the rewrites in the answer to a code-action request are exactly: for each group of parameters, results or locals around the selection with at least two types, the one that puts each type in a group of its own; and for a function type or signature around the selection, the one that joins the first selected unnamed parameter groups that follow one another, with at least two types in all and so that the document changes. They are there iff the request asks for the kind refactor.rewrite, one of its parents, or everything. When blanks stand inside a memory argument of a load or store, the fix is offered at the argument and deletes the blank; it is offered nowhere else.", "quantifier": "all documents, all selections including empty ones, all lists of requested kinds", "why_tests_cant": "The node search over all nestings and all selection boundaries, the interplay of several actions and the kind filter; tests use one selection each and never set the filter.", "anchors": ["crates/service/src/features/code_action.rs", "crates/service/src/refactorings/func_header_split.rs", "crates/service/src/refactorings/params_join.rs", "crates/service/src/refactorings/fix_invalid_mem_arg.rs"]}
{"id": "C64", "title": "Formatting is idempotent", "statement": "For every document without syntax errors, every setting of the formatter and every layout, formatting the formatted document gives the formatted document again.", "quantifier": "all source texts that parse without errors, all formatter options, all line breaks, all layout functions consistent with tiny_pretty", "why_tests_cant": "Idempotence quantifies over every program, every option and every line width; the snapshot tests format each fixture once with one width, and a separator that is missing in one combination of node and white space shows only when the output is formatted a second time.", "anchors": ["crates/formatter/src/lib.rs", "crates/formatter/src/printer/mod.rs", "crates/formatter/src/printer/module.rs:1219-1256"]}
{"id": "C65", "title": "Documents without errors are programs", "statement": "When no syntax error is reported for a document, its tree, white space and comments left out, is a program: a derivation of the grammar whose tokens have the shape of their kinds and are closed, whose instruction names are not reserved words or numbers, whose type uses and block types are ones the grammar can read back, whose unfolded instructions have no instruction operands, and in which no identifier follows a block without a trailing label.", "quantifier": "all source texts (any sequence of characters) that parse without errors, debug and release builds", "why_tests_cant": "The claim is about everything the parser accepts silently; tests check single accepted or rejected files, and the error recovery of the parser could accept a malformed construct without recording an error in combinations of positions and tokens that no fixture has.", "anchors": ["crates/parser/src/parser/mod.rs", "crates/parser/src/parser/module.rs", "crates/parser/src/parser/instr.rs", "crates/parser/src/error.rs", "crates/parser/src/lib.rs"]}
{"id": "C66", "title": "Renaming keeps what every name stands for", "statement": "When a symbol is given a name that does not occur in the document and the edits of the answer are applied, then in the edited document every reference (operand of an instruction, index of an export, start, type use, element or data field, branch label) resolves to the declarations at the places of those it resolved to before, and to no others.", "quantifier": "all source texts, all cursor positions, all new names that are accepted, debug and release builds", "why_tests_cant": "The meaning of the document after the edit depends on the whole scope: which other things are declared there, how blocks are nested, and what is referred to by number or by name; tests compare the edits of a few renames with snapshots and never read the edited document again.", "anchors": ["crates/service/src/features/rename.rs", "crates/service/src/binder.rs", "crates/service/src/idx.rs", "crates/parser/src/lib.rs"]}
{"id": "C67", "title": "Formatting keeps what every name stands for", "statement": "What the formatter prints for a document without syntax errors is again parsed without errors, has the same constructs in the same order, and every reference in it resolves to the declarations at the places of those it resolved to before, and to no others. More generally, two documents without syntax errors that differ only in white space and comments agree in what their names stand for.", "quantifier": "all source texts without syntax errors, all settings of the formatter, all layouts, both line endings, debug and release builds; all pairs of documents with the same tokens", "why_tests_cant": "Snapshot tests compare the formatted text with a stored one; none of them parses it again and compares the names, and where the spaces and comments of the input are is unbounded.", "anchors": ["crates/formatter/src/lib.rs", "crates/formatter/src/printer/mod.rs", "crates/service/src/features/formatting.rs", "crates/service/src/binder.rs", "crates/parser/src/lib.rs"]}
{"id": "C68", "title": "Formatting a range does not change the program", "statement": "Applying the edit that answers a range formatting request to a document without syntax errors gives a document that is parsed without errors, into the same tree but for white space and comments, and every reference in it resolves to the declarations at the places of those it resolved to before.", "quantifier": "all source texts without syntax errors, all ranges (including empty ones, ones that cut constructs, and ones past the end), all tab sizes, all layouts of the formatted part, debug and release builds", "why_tests_cant": "There are only a few tests of range formatting, with fixed ranges; what stands directly before and after the formatted part, with or without white space or comments, is unbounded.", "anchors": ["crates/service/src/features/formatting.rs", "crates/formatter/src/lib.rs", "crates/formatter/src/printer/mod.rs", "crates/parser/src/lib.rs"]}
{"id": "C69", "title": "Renaming back restores the document", "statement": "If a symbol is given a name that does not occur in the document, and in the edited document the symbol at the same place is given its old name, then renaming back is answered with edits and the document is byte for byte as it was.", "quantifier": "for all documents, all cursor positions on an identifier, and all new names", "why_tests_cant": "A test renames one symbol of one document; that the two sets of edits cancel for all documents and names depends on the parser reading the edited document alike and on the symbol table finding the same nodes again.", "anchors": ["crates/service/src/features/rename.rs:36-128", "crates/service/src/binder.rs", "crates/parser/src/parser/module.rs"]}
{"id": "C70", "title": "Formatting keeps the diagnostics", "statement": "What the formatter prints for a document without syntax errors has the diagnostics of the document: as many, each with the same message at the corresponding place (the same node counted in document order, its name or its first token) and with related places that correspond one by one; only the order among diagnostics of duplicated names is left open. More generally this holds for any two documents without syntax errors that differ only in white space and comments.", "quantifier": "all source texts without syntax errors, all settings of the formatter, all layouts, both line endings, debug and release builds; all pairs of documents with the same tokens", "why_tests_cant": "The tests of the diagnostics and those of the formatter are separate: none checks a formatted document, and the positions of white space and comments that could influence a check are unbounded.", "anchors": ["crates/formatter/src/lib.rs", "crates/formatter/src/printer/mod.rs", "crates/service/src/checker/mod.rs", "crates/service/src/checker/typeck.rs", "crates/service/src/checker/literal_operands.rs", "crates/service/src/checker/undef.rs", "crates/service/src/checker/dup_names.rs", "crates/parser/src/parser/token.rs"]}
{"id": "C71", "title": "Formatting keeps the outline", "statement": "What the formatter prints for a document without syntax errors has the outline of the document: the answer to a request for document symbols has the same entries with the same names, kinds and nesting in the same order below each module, with ranges and selections at the corresponding places. More generally this holds for any two documents without syntax errors that differ only in white space and comments.", "quantifier": "all source texts without syntax errors, all settings of the formatter, all layouts, both line endings, debug and release builds; all pairs of documents with the same tokens", "why_tests_cant": "The outline is tested on fixed documents and never compared before and after formatting; where white space and comments stand is unbounded, and so are the depth and number of declarations.", "anchors": ["crates/formatter/src/lib.rs", "crates/formatter/src/printer/mod.rs", "crates/service/src/features/document_symbol.rs", "crates/service/src/features/formatting.rs", "crates/service/src/binder.rs", "crates/parser/src/parser/token.rs"]}
{"id": "C72", "title": "Formatting keeps the inlay hints", "statement": "Asked for the inlay hints of the whole document, the server shows for what the formatter prints the hints of the document: the same labels, in the same order, behind the corresponding places. More generally this holds for any two documents without syntax errors that differ only in white space and comments.", "quantifier": "all source texts without syntax errors, all settings of the formatter, all layouts, both line endings, debug and release builds; all pairs of documents with the same tokens", "why_tests_cant": "Hints are tested on fixed documents and never compared before and after formatting; where white space and comments stand is unbounded, and so are the number of references and functions.", "anchors": ["crates/formatter/src/lib.rs", "crates/formatter/src/printer/mod.rs", "crates/service/src/features/inlay_hint.rs", "crates/service/src/features/formatting.rs", "crates/service/src/binder.rs", "crates/service/src/types_analyzer.rs", "crates/parser/src/parser/token.rs"]}
{"id": "C73", "title": "Formatting keeps the colours", "statement": "Apart from comments, the semantic tokens of what the formatter prints are those of the document: as many, in the same order, each with the same length and the same type. More generally this holds for any two documents without syntax errors that differ only in white space and comments, whatever token types the client knows.", "quantifier": "all source texts without syntax errors, all settings of the formatter, all layouts, both line endings, all lists of token types of the client, debug and release builds; all pairs of documents with the same tokens", "why_tests_cant": "Semantic tokens are tested on fixed documents with one list of token types and never compared before and after formatting; where white space and comments stand is unbounded.", "anchors": ["crates/formatter/src/lib.rs", "crates/formatter/src/printer/mod.rs", "crates/service/src/features/semantic_tokens.rs", "crates/service/src/features/formatting.rs", "crates/service/src/binder.rs", "crates/service/src/lib.rs", "crates/parser/src/parser/token.rs"]}
{"id": "C74", "title": "Formatting keeps the call hierarchy", "statement": "Every function of what the formatter prints has the incoming and outgoing calls of the same function of the document: as many, in the same order, with the same names and details, at corresponding ranges. More generally this holds for any two documents without syntax errors that differ only in white space and comments.", "quantifier": "all source texts without syntax errors, all settings of the formatter, all layouts, both line endings, debug and release builds, all functions; all pairs of documents with the same tokens", "why_tests_cant": "The call hierarchy is tested on fixed documents and never compared before and after formatting; where white space and comments stand, and how many functions call each other, is unbounded.", "anchors": ["crates/formatter/src/lib.rs", "crates/formatter/src/printer/mod.rs", "crates/service/src/features/call_hierarchy.rs", "crates/service/src/features/formatting.rs", "crates/service/src/binder.rs", "crates/service/src/helpers.rs", "crates/parser/src/parser/token.rs"]}
{"id": "C75", "title": "Formatting keeps definitions and references", "statement": "With the cursor on the same token before and after formatting, go-to-definition and find-references give as many places, in the same order, and the places correspond. More generally this holds for any two documents without syntax errors that differ only in white space and comments.", "quantifier": "all source texts without syntax errors, all settings of the formatter, all layouts, both line endings, debug and release builds, all tokens and all positions of the cursor on them, references with and without the declaration; all pairs of documents with the same tokens", "why_tests_cant": "Definitions and references are tested at single positions of fixed documents and never compared before and after formatting; where white space and comments stand is unbounded.", "anchors": ["crates/formatter/src/lib.rs", "crates/formatter/src/printer/mod.rs", "crates/service/src/features/definition.rs", "crates/service/src/features/references.rs", "crates/service/src/features/formatting.rs", "crates/service/src/binder.rs", "crates/service/src/helpers.rs"]}
{"id": "C76", "title": "Formatting keeps renaming", "statement": "With the cursor on the same token before and after formatting and the same new name, a rename request is refused for the same reason, or gives as many edits, in the same order, with the same text, at corresponding places. More generally this holds for any two documents without syntax errors that differ only in white space and comments.", "quantifier": "all source texts without syntax errors, all settings of the formatter, all layouts, both line endings, debug and release builds, all tokens and all positions of the cursor on them, all new names; all pairs of documents with the same tokens", "why_tests_cant": "Rename is tested at single positions of fixed documents and never compared before and after formatting; where white space and comments stand, and the new names, are unbounded.", "anchors": ["crates/formatter/src/lib.rs", "crates/formatter/src/printer/mod.rs", "crates/service/src/features/rename.rs", "crates/service/src/features/formatting.rs", "crates/service/src/binder.rs", "crates/service/src/helpers.rs"]}
{"id": "C77", "title": "Formatting keeps type definitions and declarations", "statement": "With the cursor on the same token before and after formatting, go-to-type-definition and go-to-declaration give as many places, in the same order, and the places correspond. More generally this holds for any two documents without syntax errors that differ only in white space and comments.", "quantifier": "all source texts without syntax errors, all settings of the formatter, all layouts, both line endings, debug and release builds, all tokens and all positions of the cursor on them; all pairs of documents with the same tokens", "why_tests_cant": "Type definitions and declarations are tested at single positions of fixed documents and never compared before and after formatting; where white space and comments stand is unbounded.", "anchors": ["crates/formatter/src/lib.rs", "crates/formatter/src/printer/mod.rs", "crates/service/src/features/definition.rs", "crates/service/src/features/formatting.rs", "crates/service/src/binder.rs", "crates/service/src/helpers.rs"]}
{"id": "C78", "title": "Formatting keeps where call hierarchy and rename can be started", "statement": "With the cursor on the same token before and after formatting, preparing a call hierarchy gives the same items (names, details, order, corresponding places) or nothing in both, and preparing a rename is refused in both or offers the range of the token in both. More generally this holds for any two documents without syntax errors that differ only in white space and comments.", "quantifier": "all source texts without syntax errors, all settings of the formatter, all layouts, both line endings, debug and release builds, all tokens and all positions of the cursor on them; all pairs of documents with the same tokens", "why_tests_cant": "The two requests are tested at single positions of fixed documents and never compared before and after formatting; the code finds the symbol by its text range, and ranges depend on the layout, which is unbounded.", "anchors": ["crates/formatter/src/lib.rs", "crates/formatter/src/printer/mod.rs", "crates/service/src/features/call_hierarchy.rs", "crates/service/src/features/rename.rs", "crates/service/src/features/formatting.rs", "crates/service/src/binder.rs", "crates/service/src/helpers.rs"]}
{"id": "C79", "title": "Formatting keeps how the selection grows", "statement": "With the cursor on the same token before and after formatting, the selection ranges start with the token and go on over as many constructs, in the same order, and the constructs correspond. More generally this holds for any two documents without syntax errors that differ only in white space and comments.", "quantifier": "all source texts without syntax errors, all settings of the formatter, all layouts, both line endings, debug and release builds, all tokens and all positions of the cursor on them; all pairs of documents with the same tokens", "why_tests_cant": "Selection ranges are tested at single positions of fixed documents and never compared before and after formatting; where white space and comments stand, and the depth of nesting, are unbounded.", "anchors": ["crates/formatter/src/lib.rs", "crates/formatter/src/printer/mod.rs", "crates/service/src/features/selection_range.rs", "crates/service/src/features/formatting.rs", "crates/service/src/helpers.rs"]}
{"id": "C80", "title": "Formatting keeps the hovers", "statement": "With the cursor on the same token before and after formatting, hover shows nothing in both documents, or shows the same contents (declaration, signature, type description, opcode, documentation) for the range of that token in both. More generally this holds for any two documents without syntax errors that differ only in white space and comments and in which the functions have the same documentation comments.", "quantifier": "all source texts without syntax errors, all settings of the formatter, all layouts, both line endings, debug and release builds, all tokens and all positions of the cursor on them; all pairs of documents with the same tokens and the same documentation comments", "why_tests_cant": "Hover is tested at single positions of fixed documents and the formatter on its own; no test compares hovers before and after formatting, and the layouts and comments are unbounded.", "anchors": ["crates/service/src/features/hover.rs", "crates/service/src/features/formatting.rs", "crates/formatter/src/lib.rs", "crates/formatter/src/printer/mod.rs", "crates/service/src/binder.rs", "crates/service/src/helpers.rs"]}
