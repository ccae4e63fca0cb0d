{"claims": [
{"property": "C01", "status": "partial", "theorems": ["Verif.C01_false", "Verif.C01_partial", "Verif.C01_noEscape_partial", "Verif.C01_clean_partial", "Verif.C01_kept_partial"], "note": "False of the code: text can vanish from the middle (witness \"\\u(foo)). Proved for every source without a quote that opens no readable string and is followed by a broken \\u escape (C01_partial), and for every source that is parsed without errors (C01_clean_partial)."},
{"property": "C02", "status": "partial", "theorems": ["Verif.C02_false", "Verif.C02_partial", "Verif.C02_dropped_partial", "Verif.C02_kept_partial"], "note": "False of the code: text after a form feed or an unreadable string is dropped. Proved when there is neither, and for all sources parsed without errors (C02_kept_partial); what is dropped is characterised and always reported."},
{"property": "C03", "status": "partial", "theorems": ["Verif.C03_false", "Verif.C03_partial", "Verif.C03_release_partial", "Verif.C03_only_panic_partial"], "note": "Release builds: proved for all sources. Debug builds panic on (; (; (witness); proved for sources without two block comments opened one after the other and not closed."},
{"property": "C04", "status": "partial", "theorems": ["Verif.C04_false", "Verif.C04_partial"], "note": "Bounds and character boundaries proved for all sources; start <= end is false (witness)."},
{"property": "C05", "status": "partial", "theorems": ["Verif.C05_false", "Verif.C05_partial", "Verif.C05_modules_partial"], "note": "False of the code: stray ')' after the last module. Proved for everything before the trailing top-level tokens."},
{"property": "C06", "status": "proved", "theorems": ["Verif.C06_token_shapes", "Verif.C06_nonempty"], "note": ""},
{"property": "C07", "status": "proved", "theorems": ["Verif.C07_position", "Verif.C07_roundtrip", "Verif.C07_order"], "note": ""},
{"property": "C08", "status": "partial", "theorems": ["Verif.C08_false", "Verif.C08_false_dropped", "Verif.C08_false_range", "Verif.C08_partial", "Verif.C08_document_partial", "Verif.C08_range_partial", "Verif.C08_asserts"], "note": "False in general: a column beyond the end of the last line, a position after text the parser dropped, or a range whose ends have offsets in the wrong order panics (witnesses). Proved for all texts without bad quotes or without syntax errors: ten kinds of position requests at positions whose offset is not past the tree, five kinds of range requests for ranges of the document. Semantic tokens: see C23. The assertions of development builds in is_defined_by never fail (C08_asserts)."},
{"property": "C09", "status": "partial", "theorems": ["Verif.C09_false", "Verif.C09_partial"], "note": "False of the code: columns are bytes. Proved: the column is right exactly when the line is ASCII up to the position."},
{"property": "C10", "status": "partial", "theorems": ["Verif.C10_false", "Verif.C10_partial"], "note": "Kind and scope proved for every answer; that the declaration is the one denoted is proved for names, locals and labels outside if-conditions, false for numbers of module-level entities (witness)."},
{"property": "C11", "status": "partial", "theorems": ["Verif.C11_false", "Verif.C11_partial", "Verif.C11_forward_partial"], "note": "False for locals of the same name (witness). Proved for all module-level entities, and for parameters and locals whose name is unique in the function; one direction holds always."},
{"property": "C12", "status": "partial", "theorems": ["Verif.C12_false", "Verif.C12_partial"], "note": "False of the code: one counter for all kinds of entities (witness). Proved: the exact rule the code follows, and that it is right when the entities up to the number are of one kind."},
{"property": "C13", "status": "proved", "theorems": ["Verif.C13_local_index", "Verif.C13_local_name"], "note": ""},
{"property": "C14", "status": "partial", "theorems": ["Verif.C14_false", "Verif.C14_false_condition", "Verif.C14_sound_partial", "Verif.C14_complete_partial", "Verif.C14_nearest_partial"], "note": "False of the code: blocks inside if-branches hide outer blocks; branches in if-conditions resolve to the if (witnesses). Sound outside conditions, complete for directly nested blocks; C14_nearest_partial says exactly which block is answered."},
{"property": "C15", "status": "partial", "theorems": ["Verif.C15_false", "Verif.C15_false_defined", "Verif.C15_goto_partial", "Verif.C15_partial", "Verif.C15_only_partial"], "note": "False of the code: branches outside any block are not reported, numbers of module-level entities are misresolved. Proved: a reference in a scope of its kind is reported iff go-to-definition returns nothing; names, and all parameters and locals, are reported iff they resolve to nothing by the rules; nothing else is reported, and nothing twice."},
{"property": "C16", "status": "partial", "theorems": ["Verif.C16_false", "Verif.C16_false_table", "Verif.C16_partial", "Verif.C16_local_partial", "Verif.C16_label_partial", "Verif.C16_only_partial"], "note": "False of the code: name spaces are not told apart and tables are left out. Proved: exactly when a declaration or label is reported and with which related locations."},
{"property": "C17", "status": "proved", "theorems": ["Verif.C17_proved"], "note": "In order and number; the position of each diagnostic is the one of the module."},
{"property": "C18", "status": "partial", "theorems": ["Verif.C18_false", "Verif.C18_scope_partial", "Verif.C18_partial", "Verif.C18_exact_partial", "Verif.C18_label_partial", "Verif.C18_label_exact_partial", "Verif.C18_missed"], "note": "False (witnesses): the filter compares the name of the renamed symbol with itself, so every named symbol of the module or function is edited; branches from inside an if are not renamed along with the block. Proved: exactly which tokens are edited, for everything but labels (C18_scope_partial) and for labels (C18_label_partial); that no occurrence is missed except of labels; exactness when nothing else is named in the scope, and for labels when all branches are directly inside the block and nothing else is edited along."},
{"property": "C19", "status": "partial", "theorems": ["Verif.C19_false", "Verif.C19_partial", "Verif.C19_token_partial"], "note": "False for names with an apostrophe (witness); proved with the identifier characters the parser knows, and that accepted names are read as one identifier token."},
{"property": "C20", "status": "proved", "theorems": ["Verif.C20_tokens", "Verif.C20_disjoint", "Verif.C20_order"], "note": "For every answer with edits: each is on one identifier token of the document, they are pairwise disjoint, and their order is irrelevant to the resulting text."},
{"property": "C21", "status": "partial", "theorems": ["Verif.C21_false", "Verif.C21_false_whole", "Verif.C21_nested_partial", "Verif.C21_whole_partial", "Verif.C21_cursor_partial"], "note": "False as stated: a position with no token under it (between a blank and a paren) yields no chain, so the answers no longer line up with the positions asked for; and text lost after a form feed is in no chain. Proved: every answered chain is nested, ends in the whole tree, the whole document when nothing was dropped (in particular when there are no syntax errors), and a cursor on a token always gets its chain."},
{"property": "C22", "status": "proved", "theorems": ["Verif.C22_exact", "Verif.C22_nested", "Verif.C22_answer"], "note": "Folding ranges are exactly the multi-line ranges of foldable constructs; any two are nested or disjoint."},
{"property": "C23", "status": "partial", "theorems": ["Verif.C23_full_partial", "Verif.C23_range_partial", "Verif.C23_range_line_partial", "Verif.C23_false", "Verif.C23_string_false", "Verif.C23_comment_false"], "note": "False in full (three witnesses). Exact for full requests when no string/error token spans lines and multi-line comments are known to the client; exact for ranges starting at a line start outside a comment; other ranges: exact except for the columns on the first token's line, whose shift is characterised."},
{"property": "C24", "status": "proved", "theorems": ["Verif.C24_proved", "Verif.C24_legend_proved"], "note": "For every capability list and every answered full or range request."},
{"property": "C25", "status": "proved", "theorems": ["Verif.C25_exact", "Verif.C25_nested", "Verif.C25_answer", "Verif.C25_module_missing"], "note": "Exact content and nesting for every answer; an answer is given when the source has no bad quote (see C01). Modules that declare nothing are not shown (C25_module_missing). The order of the modules is a hash map's and not claimed."},
{"property": "C26", "status": "proved", "theorems": ["Verif.C26_dual", "Verif.C26_outgoing", "Verif.C26_incoming", "Verif.C26_prepare", "Verif.C26_answer", "Verif.C26_reversed"], "note": "Duality with the same ranges in the same order; beyond it, the entries of both directions and the items to start from are exact. The detail text of an item is the rendered signature (C32). A reversed range panics (C26_reversed)."},
{"property": "C27", "status": "partial", "theorems": ["Verif.C27_partial", "Verif.C27_false", "Verif.C27_false_column", "Verif.C27_answer"], "note": "Full statement false: numbers of globals count all fields (C27_false), and a range ending behind the end of its line takes in later lines (C27_false_column). Partial: document ranges, globals referred to by name or by numbers that count alike; then hints are in range, truthful and complete."},
{"property": "C28", "status": "partial", "theorems": ["Verif.C28_false", "Verif.C28_partial", "Verif.C28_program_partial", "Verif.C28_clean_partial"], "note": "False as stated: splitting the results of a block type yields a second result group, which the code's grammar does not read there (C28_false). Proved for whole documents that are programs (Spec.Program) whose tokens do not touch: unless it is a result of a block type that is split, the rewritten document is read without errors with the same signatures (C28_program_partial); by C65 these are the documents without syntax errors, without error tokens and unclosed strings, whose instruction names are not reserved words (C28_clean_partial). For all other documents without broken strings or without errors: the rewrite replaces consecutive declaration groups by groups with the same entries in the same order, each of which the grammar reads back without errors in front of any text (C28_partial); missing there: that the surrounding text is read as before."},
{"property": "C29", "status": "partial", "theorems": ["Verif.C29_partial", "Verif.C29_false", "Verif.C29_where"], "note": "Full statement false: after a broken string escape the tree's offsets are wrong and the fix deletes a letter (C29_false). Partial: for all documents without such a string or without syntax errors the fix inserts nothing, removes blank tokens only and keeps all others in order; C29_where says where the blanks stand."},
{"property": "C30", "status": "partial", "theorems": ["Verif.C30_partial", "Verif.C30_false"], "note": "Full statement false: loads and stores without memory argument, select, calls with arguments of imported functions, of functions typed by (type $t) or without a header, and blocks with results as arguments are misreported. Proved for all folded instructions with all their immediates, references by name or by numbers that count alike, called functions without parameters or with parameters written out, and blocks without results."},
{"property": "C31", "status": "partial", "theorems": ["Verif.C31_partial", "Verif.C31_false"], "note": "Full statement false: results of functions are not checked, blocks with types are passed over. Proved: errors in a body are reported iff its types cannot be run from the empty stack, for bodies with references by name or by numbers that count alike, called functions without parameters or with parameters written out, and blocks that take and leave nothing."},
{"property": "C32", "status": "proved", "theorems": ["Verif.C32_signature", "Verif.C32_header"], "note": "For all pairs of functions of all pairs of parsed documents: equal header texts give equal names, parameters (with names) and results."},
{"property": "C33", "status": "proved", "theorems": ["Verif.C33_line", "Verif.C33_block", "Verif.C33_tokens"], "note": "All comment texts, with and without the option, idempotence included; C33_tokens applies it to the comments of every parse tree."},
{"property": "C34", "status": "partial", "theorems": ["Verif.C34_partial", "Verif.C34_unique", "Verif.C34_false", "Verif.C34_shared", "Verif.C34_imports", "Verif.C34_moved", "Verif.C34_label"], "note": "The full statement is false: shared/unshared is dropped from limits, a second inline import of a function is dropped, an inline import after an export is moved, a label at the end of a block only is moved (each proved for every layout). C34_partial: for documents without these constructs, unclosed strings, error tokens and ignore comments, every layout prints exactly the tokens of the tree, properly separated. The layout of tiny_pretty is the trusted relation Prints."},
{"property": "C35", "status": "proved", "theorems": ["Verif.C35_module", "Verif.C35_field", "Verif.C35_verbatim"], "note": "All trees, all layouts (Prints is the trusted reading of tiny_pretty). A field of an ignored module is covered by C35_module."},
{"property": "C36", "status": "partial", "theorems": ["Verif.C36_partial", "Verif.C36_queries", "Verif.C36_order_partial", "Verif.C36_order_false"], "note": "Proved for all histories of commits and requests and all handlers (programs that read texts and queries): the answer is that of the queries computed anew from the latest texts, so any two histories with the same latest texts are indistinguishable. Engine model: salsa 0.16 with verification and back-dating, including the weak equality of symbol tables. False for the order of duplicate-name diagnostics, which follows hash maps keyed by interned names (C36_order_false, for every iteration order that does not follow insertion on four given keys; the hash function itself is not modelled); up to their order, published diagnostics do not depend on the history either (C36_order_partial)."},
{"property": "C37", "status": "partial", "theorems": ["Verif.C37_partial", "Verif.C37_at_most", "Verif.C37_false", "Verif.C37_params_false"], "note": "False in full: unknown methods and unreadable parameters get no response (C37_false, C37_params_false). Proved for all messages and any service: never more than one response per request, in order (C37_at_most); for ordinary sessions exactly one, equal to the service's reply for the texts sent so far (C37_partial). The service is a parameter that maps the current texts to a reply."},
{"property": "C38", "status": "partial", "theorems": ["Verif.C38_partial", "Verif.C38_only", "Verif.C38_false"], "note": "False in full: of several changes in one notification the first is used (C38_false). Proved after any history for notifications with at most one change and texts the analysis does not panic on (C38_partial); requests never publish (C38_only)."},
{"property": "C39", "status": "partial", "theorems": ["Verif.C39_local", "Verif.C39_label_partial", "Verif.C39_partial", "Verif.C39_silent", "Verif.C39_false", "Verif.C39_condition", "Verif.C39_elem", "Verif.C39_kind"], "note": "Exact for locals (with declared types). Labels: all blocks around, which is exact outside conditions of if. Module-level entities: exact after $; otherwise exact up to the numbers of unnamed entities. Data/element segments have no completion (C39_silent). Full statement refuted three ways. The items carry the kind of what they stand for (C39_kind)."},
{"property": "C40", "status": "partial", "theorems": ["Verif.C40_partial", "Verif.C40_only", "Verif.C40_first_token", "Verif.C40_false"], "note": "The spelling check is exact for every instruction with immediates (text level); value ranges are never checked by the code (C40_false)."},
{"property": "C41", "status": "partial", "theorems": ["Verif.C41_false", "Verif.C41_observable", "Verif.C41_only_apostrophe_partial", "Verif.C41_partial"], "note": "False of the code: the apostrophe is not accepted. Proved for identifiers without it."},
{"property": "C42", "status": "proved", "theorems": ["Verif.C42_val_type_nodes"], "note": ""},
{"property": "C43", "status": "proved", "theorems": ["Verif.C43_schema", "Verif.C43_children", "Verif.C43_modules_top"], "note": ""},
{"property": "C44", "status": "proved", "theorems": ["Verif.C44_name"], "note": ""},
{"property": "C45", "status": "partial", "theorems": ["Verif.C45_partial", "Verif.C45_places", "Verif.C45_false"], "note": "False when the parser loses text before a multi-byte character (C45_false). Proved: no crash for every source without a bad quote or without syntax errors (C45_partial); unconditionally, every diagnostic reported is at a node or token of the tree or at a parser error (C45_places)."},
{"property": "C46", "status": "partial", "theorems": ["Verif.C46_false", "Verif.C46_partial", "Verif.C46_operand_partial"], "note": "False of the code: references of a block include every branch directly nested in it, wherever it branches to (C46_false). C46_partial gives the exact set the code lists on a block, C46_operand_partial that a branch operand lists the same as the block it resolves to."},
{"property": "C47", "status": "proved", "theorems": ["Verif.C47_prepare", "Verif.C47_refused"], "note": "For every in-document cursor at which the request does not crash (C08)."},
{"property": "C48", "status": "proved", "theorems": ["Verif.C48_sound", "Verif.C48_complete", "Verif.C48_opcodes"], "note": "The standard's list (Spec/Instrs.lean) is written by families, independently of the program's table; number of immediates is not part of this claim (it is wrong for several entries, see DESIGN.md section 4)."},
{"property": "C49", "status": "partial", "theorems": ["Verif.C49_partial", "Verif.C49_false"], "note": "Full statement false: parameters given by a type are left out when locals are numbered. Proved for functions whose parameters are written with them."},
{"property": "C50", "status": "partial", "theorems": ["Verif.C50_false", "Verif.C50_partial", "Verif.C50_name"], "note": "False in full: operands that refer to types, globals, memories and tables get an answer too. Proved: on operands that refer to a module-level entity it is exactly go-to-definition, elsewhere there is no answer; by name, exactly the declarations of that name."},
{"property": "C51", "status": "partial", "theorems": ["Verif.C51_false", "Verif.C51_partial", "Verif.C51_elsewhere"], "note": "False for numbers counting entities of several kinds (as C12). Proved for names and for numbers that count entities of their kind only; elsewhere no answer."},
{"property": "C52", "status": "partial", "theorems": ["Verif.C52_format", "Verif.C52_document_partial", "Verif.C52_range_partial", "Verif.C52_false", "Verif.C52_false_document", "Verif.C52_false_range"], "note": "False in full: where the parser loses text (broken string escape) the ends of the tree or of a node can be inside a character, and the request panics (C52_false_document, C52_false_range). Proved for source texts without a broken string escape (BadQuote, see C02) or without syntax errors; building the printed document never panics for any tree of the parser (C52_format). A range that ends before it begins panics before formatting (C08). tiny_pretty itself is trusted."},
{"property": "C53", "status": "partial", "theorems": ["Verif.C53_document_partial", "Verif.C53_range_partial", "Verif.C53_false"], "note": "False in full: where the parser loses text the edit replaces too little (C53_false). Proved for source texts without a broken string escape or without syntax errors; text the parser left out of the tree stays behind the formatted document."},
{"property": "C54", "status": "partial", "theorems": ["Verif.C54_partial", "Verif.C54_false"], "note": "The full statement is false: root-level garbage after a module, e.g. '(module))', becomes ERROR tokens without a recorded error (C54_false). Proved: without errors every node below the root is an instance of a production of its kind, ends in a token or node rather than in white space or a comment, and begins so too unless it is a then part or type use without parenthesis of its own; nothing is dropped, line comments end, and the root is modules followed by ERROR tokens; without ERROR tokens the whole tree is a derivation."},
{"property": "C55", "status": "partial", "theorems": ["Verif.C55_partial", "Verif.C55_local", "Verif.C55_named", "Verif.C55_declaration", "Verif.C55_silent", "Verif.C55_instruction", "Verif.C55_valueType", "Verif.C55_elsewhere", "Verif.C55_false"], "note": "False for numbers counted across kinds of entities (as C12) and for references to memories, tables and labels, which get no hover. Proved for locals in full; for names and numbers counting one kind only for functions, globals and types; for names that several entities have, all of which are shown in document order (C55_named); for declarations, instruction names and value types; and that there is no hover elsewhere. No crash: see C08."},
{"property": "C56", "status": "partial", "theorems": ["Verif.C56_partial", "Verif.C56_text", "Verif.C56_unambiguous", "Verif.C56_layout", "Verif.C56_false", "Verif.C56_callIndirect", "Verif.C56_results", "Verif.C56_float"], "note": "Every text of every program (Spec.Program: derivation tree of the grammar with Regular/TokenFine restrictions) is parsed without errors into that program. Programs with an indirect call typed by parameters only, a block with several results, or a signed hexadecimal number with a letter after an underscore are rejected by the code (proved with witnesses)."},
{"property": "C57", "status": "partial", "theorems": ["Verif.C57_partial", "Verif.C57_program_partial", "Verif.C57_clean_partial", "Verif.C57_false", "Verif.C57_shared"], "note": "Proved for documents whose tree is a program (Spec.Program) without the constructs the formatter loses tokens of (Spec.Plain); by C65 these are all documents without syntax errors that are Plain and whose instruction names are not reserved words or numbers (C57_clean_partial). False in general (shared limits)."},
{"property": "C58", "status": "partial", "theorems": ["Verif.C58_partial", "Verif.C58_missing", "Verif.C58_unknown", "Verif.C58_valueTypes", "Verif.C58_keywords_partial", "Verif.C58_keywords_false", "Verif.C58_refTypes_partial", "Verif.C58_refTypes_false", "Verif.C58_memArgs", "Verif.C58_noMemArgs", "Verif.C58_body_partial", "Verif.C58_body_false", "Verif.C58_open_partial", "Verif.C58_open_false", "Verif.C58_instr_keywords", "Verif.C58_func_keywords"], "note": "The list of instruction names is that of WebAssembly 1.0 and part of the vector instructions: for example memory.copy is not offered (C58_missing), and i8x16.mul, which does not exist, is (C58_unknown). Proved at every instruction name, and after every opening parenthesis where an instruction may follow except in blocks and folded instructions (C58_open_false): all other names offered exist, all of 1.0 and of the vector moves are offered, each once. Value types and memory arguments are exactly right. Keywords of functions and segments are exactly right while they have no other parts (C58_body_partial; C58_body_false: param after the results). Other keywords are exactly right after the parenthesis of an incomplete part; inside the keyword of a complete one the keywords of its parts are offered instead (C58_keywords_false). Reference types are right in tables; in element segments nothing is offered (C58_refTypes_false). Header keywords of functions are offered before the first instruction and not right after one (C58_instr_keywords, C58_func_keywords)."},
{"property": "C59", "status": "partial", "theorems": ["Verif.C59_partial", "Verif.C59_false", "Verif.C59_result", "Verif.C59_if_block", "Verif.C59_if_line"], "note": "The full statement is false: a comment between parameters and results of a type use without (type ..) and a comment after an if that is not in parentheses are dropped (each proved for every layout). C59_partial: for documents that are Plain as in C34 and have no comment at the start of a then part without parentheses or of a type use without (type ..), or between parameters and results of such a type use, every layout shows exactly the tokens and comments in order. Prints is the trusted reading of tiny_pretty."},
{"property": "C60", "status": "proved", "theorems": ["Verif.C60", "Verif.C60_exact", "Verif.C60_reads_partial", "Verif.C60_names_partial", "Verif.C60_plain_partial", "Verif.C60_partial", "Verif.C60_clean_partial"], "note": "C60 is the full claim; C60_exact says more: the tree of the edited document is exactly the old one, white space and comments included, with the new name at the edited places. C60_names_partial goes beyond the claim: the same for documents with syntax errors (unless text is lost, C01) and names without backslashes, with as many errors as before; C60_reads_partial joins the two. C60_partial, C60_clean_partial and C60_plain_partial are earlier special cases."},
{"property": "C61", "status": "partial", "theorems": ["Verif.C61_partial", "Verif.C61_false"], "note": "False of the code for functions with two parameters or locals of one name (C61_false, concrete witness). Proved for all other documents: module-level entities without any condition, parameters and locals of functions with distinct names. Labels are the subject of C46."},
{"property": "C62", "status": "partial", "theorems": ["Verif.C62_use_partial", "Verif.C62_declaration_partial", "Verif.C62_false"], "note": "Proved in full for declarations (fields, imports, parameters, locals, blocks) and for uses, except uses of locals in functions with two parameters or locals of one name, where the code lists both declarations (C62_false)."},
{"property": "C63", "status": "partial", "theorems": ["Verif.C63_rewrite_false", "Verif.C63_rewrite_partial", "Verif.C63_rewrite_missed", "Verif.C63_join_false", "Verif.C63_fix_false", "Verif.C63_fix_partial", "Verif.C63_fix_only_partial", "Verif.C63_inside_false"], "note": "False in full: kinds are not taken hierarchically, joining is offered for one group, the fix is not offered for flat instructions, nothing is offered at a cursor behind which an empty then-branch lies, and the fix joins a number that follows (offset =1 2 becomes offset=12). Proved for documents without broken strings: the rewrites offered are exactly those that apply (C63_rewrite_partial, kinds compared exactly, cursors not at a node without text); the fix is offered for the first broken argument of an instruction that has the pieces as its children, with exactly the edits that are said (C63_fix_partial), and only for blanks of an instruction around the selection (C63_fix_only_partial). Missing: an instruction where a piece that looks like an argument stands before the broken one."},
{"property": "C64", "status": "partial", "theorems": ["Verif.C64_partial", "Verif.C64_clean_partial", "Verif.C64_params", "Verif.C64_false"], "note": "The full statement (C64_statement) is false: a blank line between the parameters and the results of a type use without a type part is dropped together with the separator, and the separator comes back the second time (C64_params, whatever the layout). C64_partial proves idempotence for programs (Spec.Program, Spec.Plain) of one module without comments and blank lines; C64_clean_partial says the same of documents without syntax errors. Missing: comments, blank lines, several modules."},
{"property": "C65", "status": "partial", "theorems": ["Verif.C65_partial", "Verif.C65_text_partial", "Verif.C65_fine", "Verif.C65_false", "Verif.C65_error", "Verif.C65_string", "Verif.C65_name"], "note": "False as stated: an error token after the last module, a string ended by its line and a reserved word as the name of an instruction are accepted silently (C65_error, C65_string, C65_name). C65_partial is exact: a document without errors is a program if and only if it has none of these. C65_text_partial: it is then a text of this program, if its tokens do not touch each other."},
{"property": "C66", "status": "partial", "theorems": ["Verif.C66_scope_partial", "Verif.C66_label_partial", "Verif.C66_false"], "note": "False of the code (C66_false): every name in the scope is renamed (see C18), so two functions end up with one name. Proved: if everything named in the scope of the symbol has its name, or, for labels, under the conditions of C18_label_exact_partial and for a name that does not occur, the edited document parses to the same tree but for the names, with as many errors, and all references resolve as before. In documents with syntax errors, names with a backslash and lost text (C01) are left out."},
{"property": "C67", "status": "partial", "theorems": ["Verif.C67_partial", "Verif.C67_text_partial", "Verif.C67_layout", "Verif.C67_imports", "Verif.C67_false"], "note": "Proved for documents whose tokens are those of programs, without the constructs the formatter loses tokens of and without ignore comments; C67_layout holds for all documents without errors that differ in white space and comments only. False in full: the second import of a function is dropped (C67_imports)."},
{"property": "C68", "status": "partial", "theorems": ["Verif.C68_partial", "Verif.C68_imports", "Verif.C68_false"], "note": "Proved for documents whose tokens are those of programs and do not run together, without the constructs the formatter loses tokens of and without ignore comments; every range, every layout. False in full: range formatting a function with two imports drops the second (C68_imports, C68_false)."},
{"property": "C69", "status": "partial", "theorems": ["Verif.C69_false", "Verif.C69_scope_partial", "Verif.C69_label_partial"], "note": "The full statement is false of the code: renaming renames everything in the scope, so that renaming back gives other symbols the old name too (C69_false). Proved where the code is right: for everything but labels if all names of the scope are the same, and for labels if all branches to the block are directly inside it; then renaming back is answered with edits, and restores the document, syntax errors or not. Missing: in documents with syntax errors, names with a backslash and lost text (C01)."},
{"property": "C70", "status": "partial", "theorems": ["Verif.C70_partial", "Verif.C70_layout", "Verif.C70_text_partial", "Verif.C70_range_partial", "Verif.C70_string", "Verif.C70_false"], "note": "False in full: an unclosed string at the end of a line is joined with the next line, and the formatted document has syntax errors (C70_string). Proved (C70_partial) for documents whose tokens are those of programs and without constructs the formatter loses tokens of or ignore comments, also for the formatting of a range (C70_range_partial) and any other layout of the tokens (C70_text_partial); C70_layout for all pairs of documents without syntax errors that differ in white space and comments only. Number, messages, places and related places of the diagnostics agree; nothing is said about the order of the diagnostics of duplicated names, which is that of a hash map in the code."},
{"property": "C71", "status": "partial", "theorems": ["Verif.C71_partial", "Verif.C71_layout", "Verif.C71_string", "Verif.C71_false", "Verif.C71_text_partial", "Verif.C71_range_partial"], "note": "False in full: behind an unclosed string at the end of a line the following declarations become a part of the string when formatted (C71_string). Proved (C71_partial) for documents whose tokens are those of programs and without constructs the formatter loses tokens of or ignore comments; C71_range_partial for the formatting of a range, C71_text_partial for every other text with the same tokens; C71_layout for all pairs of documents without syntax errors that differ in white space and comments only. The order of the modules in the answer is that of a hash map, hence compared up to permutation."},
{"property": "C72", "status": "partial", "theorems": ["Verif.C72_partial", "Verif.C72_layout", "Verif.C72_false", "Verif.C72_text_partial", "Verif.C72_range_partial"], "note": "False in full: a document with an unclosed string at the end of a line has syntax errors when formatted (C70_string). Proved (C72_partial) for documents whose tokens are those of programs and without constructs the formatter loses tokens of or ignore comments; C72_range_partial for the formatting of a range, C72_text_partial for every other text with the same tokens; C72_layout for all pairs of documents without syntax errors that differ in white space and comments only. Number, order, labels and places of the hints agree."},
{"property": "C73", "status": "partial", "theorems": ["Verif.C73_partial", "Verif.C73_layout", "Verif.C73_false", "Verif.C73_text_partial", "Verif.C73_range_partial"], "note": "False in full: a document with an unclosed string at the end of a line has syntax errors when formatted (C70_string). Proved (C73_partial) for documents whose tokens are those of programs and without constructs the formatter loses tokens of or ignore comments; C73_range_partial for the formatting of a range, C73_text_partial for every other text with the same tokens; C73_layout for all pairs of documents without syntax errors that differ in white space and comments only. A build without overflow checks always answers; a build with them may panic on strings that span lines (C23), then nothing is compared."},
{"property": "C74", "status": "partial", "theorems": ["Verif.C74_partial", "Verif.C74_layout", "Verif.C74_false", "Verif.C74_text_partial", "Verif.C74_range_partial"], "note": "False in full: a document with an unclosed string at the end of a line has syntax errors when formatted (C70_string). Proved (C74_partial) for documents whose tokens are those of programs and without constructs the formatter loses tokens of or ignore comments; C74_range_partial for the formatting of a range, C74_text_partial for every other text with the same tokens; C74_layout for all pairs of documents without syntax errors that differ in white space and comments only."},
{"property": "C75", "status": "partial", "theorems": ["Verif.C75_partial", "Verif.C75_layout", "Verif.C75_false", "Verif.C75_text_partial", "Verif.C75_range_partial"], "note": "False in full: a document with an unclosed string at the end of a line has syntax errors when formatted (C70_string). Proved (C75_partial) for documents whose tokens are those of programs and without constructs the formatter loses tokens of or ignore comments; C75_range_partial for the formatting of a range, C75_text_partial for every other text with the same tokens; C75_layout for all pairs of documents without syntax errors that differ in white space and comments only. An empty answer and no answer are not told apart."},
{"property": "C76", "status": "partial", "theorems": ["Verif.C76_partial", "Verif.C76_layout", "Verif.C76_false", "Verif.C76_text_partial", "Verif.C76_range_partial"], "note": "False in full: a document with an unclosed string at the end of a line has syntax errors when formatted (C70_string). Proved (C76_partial) for documents whose tokens are those of programs and without constructs the formatter loses tokens of or ignore comments; C76_range_partial for the formatting of a range, C76_text_partial for every other text with the same tokens; C76_layout for all pairs of documents without syntax errors that differ in white space and comments only."},
{"property": "C77", "status": "partial", "theorems": ["Verif.C77_partial", "Verif.C77_layout", "Verif.C77_false", "Verif.C77_text_partial", "Verif.C77_range_partial"], "note": "False in full: a document with an unclosed string at the end of a line has syntax errors when formatted (C70_string). Proved (C77_partial) for documents whose tokens are those of programs and without constructs the formatter loses tokens of or ignore comments; C77_range_partial for the formatting of a range, C77_text_partial for every other text with the same tokens; C77_layout for all pairs of documents without syntax errors that differ in white space and comments only. An empty answer and no answer are not told apart."},
{"property": "C78", "status": "partial", "theorems": ["Verif.C78_partial", "Verif.C78_layout", "Verif.C78_false", "Verif.C78_text_partial", "Verif.C78_range_partial"], "note": "False in full: a document with an unclosed string at the end of a line has syntax errors when formatted (C70_string). Proved (C78_partial) for documents whose tokens are those of programs and without constructs the formatter loses tokens of or ignore comments; C78_range_partial for the formatting of a range, C78_text_partial for every other text with the same tokens; C78_layout for all pairs of documents without syntax errors that differ in white space and comments only."},
{"property": "C79", "status": "partial", "theorems": ["Verif.C79_partial", "Verif.C79_layout", "Verif.C79_false", "Verif.C79_text_partial", "Verif.C79_range_partial"], "note": "False in full: a document with an unclosed string at the end of a line has syntax errors when formatted (C70_string). Proved (C79_partial) for documents whose tokens are those of programs and without constructs the formatter loses tokens of or ignore comments; C79_range_partial for the formatting of a range, C79_text_partial for every other text with the same tokens; C79_layout for all pairs of documents without syntax errors that differ in white space and comments only."},
{"property": "C80", "status": "partial", "theorems": ["Verif.C80_false", "Verif.C80_documentation", "Verif.C80_layout", "Verif.C80_partial", "Verif.C80_text_partial", "Verif.C80_range_partial"], "note": "False in full: an unclosed string (C80_false), and with format_comments a documentation comment ';;; adds' becomes ';; ; adds' and is no longer shown (C80_documentation). Proved for documents whose tokens are those of programs, outside the constructs excluded by Plain, if corresponding functions have the same documentation comments (SameDocs). Missing: that the formatter establishes SameDocs when comments are not formatted."}
]}
