# Verification design: wasm-language-tools

Subject: the Rust workspace in `/repo` (crates `syntax`, `parser`, `formatter`, `service`, `server`).
The code was read as text only; nothing of it was built or run.  The Lean 4 project in `/verif/lean`
holds a function-by-function model (`Verif/Model/*`), small independent specifications
(`Verif/Spec/*`), helper lemmas (`Verif/Lemmas/*`) and the property theorems (`Verif/Props/*`).

## 1. Trusted base

* Lean 4.33.0's kernel.  Axioms allowed: `propext`, `Classical.choice`, `Quot.sound`.  No own axioms,
  no `sorry`, no `native_decide`/`bv_decide`.  What `#print axioms` says of the theorems of MANIFEST.json:
  * `propext` only: `C02_false`, `C03_false`, `C08_false`, `C08_false_dropped`, `C08_false_range`, `C09_false`,
    `C19_false`, `C21_false_whole`, `C26_reversed`, `C27_false_column`, `C28_false`, `C29_false`, `C35_verbatim`,
    `C37_false`, `C37_params_false`, `C38_only`, `C38_false`, `C39_false`, `C39_condition`, `C41_observable`,
    `C45_false`, `C50_false`, `C52_false`, `C52_false_document`, `C52_false_range`, `C55_false`, `C58_refTypes_false`,
    `C63_inside_false`, `C63_join_false`.
  * `propext` and `Quot.sound`: `C01_false`, `C04_false`, `C05_false`, `C19_partial`, `C21_false`,
    `C24_legend_proved`, `C25_module_missing`, `C32_signature`, `C34_unique`, `C36_order_false`, `C41_false`,
    `C41_only_apostrophe_partial`, `C41_partial`, `C48_sound`, `C48_opcodes`, `C54_false`, `C56_text`, `C62_false`,
    `C63_rewrite_false`, `C63_rewrite_missed`, `C63_fix_false`.
  * `propext`, `Classical.choice` and `Quot.sound`: all other theorems of MANIFEST.json.
* The transcription of the Rust code into Lean, checked by reading only (every model definition cites
  file and lines).  As an additional sanity check (not a proof) the parser model was executed on the
  repository's own parser fixtures and compared with the committed snapshots; see section 5.
* The behaviour of third-party crates whose sources are not available offline:
  * `winnow` 0.6 (recoverable parsing): modelled by `Verif/Model/Winnow.lean`.  Assumptions:
    `recoverable_parse` runs the parser, then `eof`, recording an error and skipping the rest when
    text is left; `record_err` keeps errors across backtracking; `repeat`/`repeat_till` assert progress
    (panic in debug builds, an ordinary parse error in release builds); `alt` keeps the last error;
    `verify`, `peek`, `opt`, `not` restore the input position on failure.
  * `rowan` 0.15: trees are immutable; `TextRange::new` panics if reversed; `token_at_offset` panics if
    the offset is outside the tree; node pointers are (kind, range) pairs.
  * `line-index` 0.1: columns are UTF-8 bytes; `offset` adds the column to the line start.
  * `salsa` 0.16: memoised queries with dependency tracking, verification and back-dating.
  * `lsp-server`, `lsp-types`, `serde_json`, `tiny_pretty`: message transport, data types, JSON, layout.
* `u32`/`usize` arithmetic is modelled by `Nat`; where wrap-around or underflow is reachable it is
  called out explicitly (documents are assumed shorter than 4 GiB).

## 2. What is modelled, and what is not

Layers, bottom-up:

| layer | model module | /repo source |
|---|---|---|
| syntax kinds, green trees | `Model/Syntax` | syntax/src/kind.rs, lib.rs |
| winnow combinators, error recording | `Model/Winnow` | parser/src/error.rs, parser/mod.rs (+ winnow) |
| lexical parsers | `Model/Token` | parser/src/parser/token.rs |
| grammar | `Model/Grammar` | parser/src/parser/{instr,ty,module,mod}.rs |
| line index, position helpers | `Model/LineIndex` | service/src/helpers.rs, files.rs |
| positioned tree | `Model/Tree` | rowan + syntax/src/ast |
| symbol table and queries | `Model/Binder` | service/src/binder.rs, idx.rs |
| signatures | `Model/Types` | service/src/types_analyzer.rs |
| checkers | `Model/Check`, `Model/InstrMeta` | service/src/checker/*.rs, data_set.rs |
| language features | `Model/Nav`, `Model/Outline`, `Model/Semantic`, `Model/DocSymbol`, `Model/Calls` (call hierarchy, inlay hints), `Model/Completion`, `Model/Hover` | service/src/features/*.rs |
| code actions | `Model/Action` | service/src/features/code_action.rs, refactorings/*.rs |
| formatter | `Model/Format` | formatter/src/printer/*.rs, lib.rs |
| formatting requests | `Model/FormatRange` | formatter/src/lib.rs (`format_range`), service/src/features/formatting.rs |
| order of duplicate-name diagnostics | `Model/DupOrder` | service/src/checker/dup_names.rs (hash maps), idx.rs (interning) |
| query bodies | `Model/Query` | service/src/{files,binder,types_analyzer}.rs as `salsa` queries |
| query engine history | `Model/Salsa` | service/src/lib.rs, files.rs (+ salsa) |
| server loop | `Model/Server` | server/src/server.rs |

Not modelled: JSON (de)serialisation, the stdio transport, the layout engine `tiny_pretty`
itself, editors/clients, performance, memory limits and stack overflow on deep nesting.

## 3. Plan per property

* C01 prefix-losslessness: combinator-closure invariant ("a successful parser's output text followed by
  its remaining input is its input") proved for each winnow combinator, then for the whole grammar by
  induction on the recursion depth.  `C01_clean_partial`: the same with an invariant about runs that record no error.
* C02 losslessness: expected FALSE (form feed; string with broken escape).  Negation with witnesses, exact
  description of where text can be dropped, and `_partial` on texts without the offending characters.
* C03 totality: fuelled recursion with a distinguished "out of fuel" value; prove it unreachable; release
  builds never panic; debug builds do exactly on documents with `TwiceUnclosed` (two block comments open at the end).
* C04 error ranges: bounds proved for all; `start <= end` expected FALSE (witness), `_partial`.
* C05 silent errors: expected FALSE (stray `)` after the modules); `_partial`: with no syntax error there is
  no error token inside a module.
* C06 token shapes: combinator-closure invariant over produced tokens.
* C07 positions: round trip and strict monotonicity over all texts.
* C08 no crash at any position: expected FALSE (column past the end of the last line, reversed range);
  `_partial` for positions that denote an offset in the document.  `C08_asserts`: the debug assertions of the symbol table hold.
* C09 UTF-16: FALSE (bytes); `_partial` for ASCII lines.
* C10-C14 name resolution over the symbol table built from an arbitrary tree; C12, C14 expected FALSE in
  general with witnesses and `_partial` theorems.
* C15-C17, C40 checkers: iff-theorems against small specifications.
* C18 rename exactness: FALSE (filter compares the wrong symbol; labels also miss occurrences); the exact set of edited
  tokens is proved for everything but labels (`C18_scope_partial`) and for labels (`C18_label_partial`), with conditions
  under which it is the right one.  C19, C20 proved.
* C21, C22, C25 tree features: containment/nesting invariants of positioned trees.
* C23, C24 semantic tokens: encode/decode round trip under a "no unsupported multi-line token" condition,
  with witnesses for the failures.
* C26 call hierarchy duality, C27 inlay hints: over the symbol table.
* C28 split/join: false in full (`C28_false`); the partial theorem is local: consecutive groups are replaced by groups with
  the same entries, and each new group is read back by the grammar in front of any text (`Lemmas/Reads`, `Lemmas/Declare`).
  `C28_program_partial` is about whole documents: exchanging a run of declarations in a program (C57) gives a program
  (`Lemmas/Swap`, `SwapDecl`, `SwapTree`), its tokens are apart again (`Lemmas/Rewrite`), so that the acceptance theorem of
  C56 gives an error-free tree; block types are excluded by hypothesis, as C28 is false there.
* C29 memory arguments: the edited text as the token sequence without some blanks (`Lemmas/Splice`).
* C30, C31 type checker against an independent stack-typing judgement (`Spec/Typing.lean`: what an instruction takes and
  leaves by the standard's list and the declarations it names).  Both are false in full (`C30_false`, `C31_false`);
  the partial theorems cover instructions with all immediates, references by name or by numbers that count alike, calls of
  functions without parameters or with parameters written with them (results may come from a type, and imported functions may
  have results), and blocks that take and leave nothing.
* C49 local indices by the standard (parameters may come from a type): false, the partial theorem is C13's case.
* C50 go to declaration: on operands that refer to module-level entities equal to go to definition, elsewhere no answer; false as
  documented ("only for function calls").
* C51 go to type definition: the composition of two resolutions; names and plainly counted numbers; false for other numbers.
* C32 injectivity of the rendered signature.
* C33-C35, C52, C53 formatter: `Model/Format.lean` follows the printer up to the document that `tiny_pretty` gets;
  `Spec/Print.lean` says which texts a document may be laid out as (`Prints`, the trusted reading of `tiny_pretty`: texts as they
  are, a soft line is a blank or a line break, any indentation), so theorems about all `out` hold for every width, indent and tab
  setting.  C33: comment functions for all texts.  C35: ignored modules and fields, every layout.  C52: no document of a parse
  tree contains the panics of `format_line_comment`/`format_block_comment`, and there is always a layout.  C53: what the edits of
  the two formatting requests replace.  C34: `Spec/Lexemes.lean` relates a text to its tokens (`Lexes`, after the lexical
  grammar of the standard; `C34_unique`: at most one token sequence per text); false in full (witnesses in section 4, for every
  layout); the partial theorem covers documents without the constructs that lose tokens, by one lemma per printer over the
  derivation trees of C54.
* C59 comments kept by the formatter (`Spec/Comments.lean`: `Carries`, the output is the tokens and comments in their order with
  only layout around them).  `Lemmas/FormatMark*.lean`: the texts of the document of a node are those of its tokens and comments,
  one lemma per printer as in C34.  Needs that no node below the root ends in white space or a comment, which C54 now states
  (`EndsSolid` in `Derived`; how nodes begin is `BeginsSolid`).  False in full (section 4).
* C60 renaming and parsing: `Spec/Relabel.lean` puts a name for identifiers of a tree at chosen places.  `Lemmas/Apart.lean`: a
  document whose tokens are apart consists of them in the sense of `Lexes`; `Lemmas/Relabel.lean`: renaming keeps this and keeps
  programs programs; then `parse_accepts` of C56 gives the tree of the edited text.
  For documents that are not programs (errors included) `Lemmas/Sim*.lean` run the parser on both texts at once: the texts agree
  but for some names, and each parser of the grammar gives related results on related inputs (`Sim`), so that the edited
  document is read the same way, with as many errors and the same text dropped (`C60_names_partial`).  A name with a backslash
  is left out there, since after a quote that opens no string the scanner may look at it as an escape.
  For documents without syntax errors this cannot happen, and C60 holds in full (`C60_exact`, `C60`): `Lemmas/Clean*.lean` run
  the parser on both texts again (`Cl`), now with the knowledge that the run on the original text records no error (`Bad`
  otherwise) and an invariant of what is still to be read (`Inv`).  A first pass over the original text shows where strings and
  comments are (`Placed`), so that no name is read as part of one (`Good`, the invariant of the second pass).
* C36 history independence: `Model/Salsa.lean` is the engine with verification and back-dating (trusted reading of `salsa`),
  `Model/Query.lean` the query bodies; refinement to "recompute from the latest inputs" for all histories and handlers
  (`Lemmas/Salsa.lean`, generic in the query group).  The order of duplicate-name diagnostics is that of two hash maps whose
  keys hold interned names: `Model/DupOrder.lean` has the interner and the two maps, their iteration orders being parameters.
  The full claim is false there (`C36_order_false`, for every order that does not follow insertion on four given keys); for all
  permuting orders and all histories the diagnostics are those of the other theorems up to order (`C36_order_partial`).
* C37, C38 server loop: state machine over message sequences; the service is a parameter.  Both false in full, partial for
  ordinary sessions.
* C39 completion at an index (`Spec/Complete.lean`): the items, as label and inserted text, against the declarations in scope in
  index order.  Locals in full; labels and module-level entities partial; `C39_silent` where the code has no completion.
* C40 literal operands: iff-theorem against a table of immediates of the standard; partial where the code's
  table lacks instructions or accepts signed indices.
* C41 identifiers: the lexer against the standard's `idchar`; expected FALSE for the apostrophe.
* C42, C43 tree facts: by the same combinator-closure invariants as C01/C06.  C44 named references: over the symbol table.
* C45 no crash while collecting diagnostics: post-condition calculus `Ans.Post` over all checkers.
* C46, C47 label references, where rename is offered: over the symbol table.
* C61, C62 find-references at a use, and with the declaration: against the answers of go-to-definition
  (`Lemmas/UseRefs.lean`: what the filter of `find_references` selects for a reference).  Both false for locals of one name.
* C54 derivation trees: `Spec/Grammar.lean` lists the productions per kind of node; `Lemmas/Derive.lean` has one soundness rule
  per combinator (`Snd p A`: without recorded errors `p` yields an instance of one of the productions `A`), and
  `Lemmas/DeriveGrammar.lean` one lemma per grammar function.
* C56 completeness of the parser, the converse of C54: `Spec/Program.lean` says which derivation trees are programs and
  `Spec.Lexes` which texts they have.  `Lemmas/Accept*.lean`: `Gives`/`Refuses` describe the parser on one text, `Acc`/`Rej` on
  all texts of a token sequence, `Impl` on all instances of a list of grammar items given the tokens that may follow (`Look`);
  one lemma per combinator and one per grammar function; instructions by induction on the number of tokens.  Expected FALSE in
  full (section 4).  `Lemmas/ProgramCheck.lean` has sufficient checks, only used for examples.  C57 (formatted documents are
  parsed into the same tree) follows from C34 and C56.
* C65 the converse of C56: a document without errors is a program exactly if it has no error token, its strings are closed and
  its names of instructions are not words with another meaning.  `Lemmas/Settle.lean`: after white space and comments have been
  skipped nothing is left to skip; `Lemmas/Regular{Run,Instr,Module}.lean`: one lemma per combinator and grammar function
  (`Rg`: without recorded errors the elements satisfy what `Spec.Regular` requires beyond the productions);
  `Lemmas/RegularTree.lean`: where a label may not follow is checked over the whole table of productions in the kernel.
  Expected FALSE in full (section 4).  The theorems about formatting, renaming and rewriting of programs (C57, C64, C60, C28)
  are restated for documents without errors in `Props/C65.lean`.
* C66 composes rename with a second run of the parser and the resolution of names (`Spec/Resolve.lean`, independent of the binder):
  `SameMeaning` compares the nodes of the two trees place by place. `Lemmas/Moved.lean` maps every node of the tree to the node
  of the relabelled tree (`relabel`, which C60 shows to be the tree of the edited document) and shows that everything `Resolves` is
  made of commutes with the map; what is left is that the old and new names of a reference and its declarations agree alike, from C18.
  `C66_scope_partial` covers everything but labels (the new name may even be in use elsewhere), `C66_label_partial` labels.
* C67 composes the formatter, a second run of the parser and the resolution of names: `Lemmas/Stripped.lean` maps every node to the
  node of the tree without white space and comments (`strip`), shows that what `Resolves` is made of commutes with the map, and that
  no two declarations or references become one (each has a token of its own, from C54).  With C57 and C65 this gives
  `C67_partial`.  Expected FALSE in full (section 4).
* C68 is C57 and C67 for one node in place: `Lemmas/RangeText.lean` splits the tokens of the document at the node that range
  formatting picks, shows what its first and last tokens can be (`first_fine`, `last_solid`) and that no line comment is directly
  before it, so that a text with the node's tokens, put in its place, runs together with nothing (`splice_lexes`).  The edit is applied
  by the specification of edits, also where it only inserts.  Expected FALSE in full (section 4).
* C69 applies C18, C60 and C66 twice (`Lemmas/RenameBack.lean`): the nodes edited in the edited document are the images of those
  edited in the first, so that the offsets edited the second time are those where the new name stands, and the tokens are the old
  ones again (`edit_back`).  Expected FALSE in full (section 4).
* C70 is C67 for the diagnostics (`Spec/Reports.lean`: same message at nodes with the same number in document order, at the names
  in such nodes or at their first tokens; `Spec/SameLists.lean`: as many, one by one, with their related places).
  `Lemmas/SameTypes.lean`: the type checks compute related results on related nodes (`Rel`), by relational lemmas about lists,
  function by function; `Lemmas/SameSymbols.lean`: the symbol tables correspond symbol by symbol; `Lemmas/SameList.lean`: the other
  checks.  `C70_layout` is for any two documents that differ in white space and comments only; with C57 and C65 this gives
  `C70_partial`.  The lists are in the order of the model; the order of the diagnostics of duplicated names is that of a hash map in
  the code (`Model/DupOrder.lean`), and nothing is claimed about it.  Expected FALSE in full (section 4).
* C71 is C67 for the outline (`Spec/SameOutline.lean`): C25 says what the entries are, `Lemmas/SameOutline.lean` relates the
  declarations of the two trees list by list with the relation of C70.  Expected FALSE in full (section 4).
* C72 is C71 for the inlay hints of the whole document (`Spec/SameHints.lean`), with their number and order: `Lemmas/SameSymbols.lean`
  relates the two symbol tables symbol by symbol, following the binder; `Lemmas/SameHints.lean` the hints.  Expected FALSE in full
  (section 4).
* C73 is C72 for the semantic tokens of the whole document, apart from comments: the lengths and the names of the types, in order
  (`Spec/SameColours.lean`).  `Lemmas/SameColours.lean` relates the tokens of the two trees and shows that the class of a token
  depends on what white space and comments do not change.  Positions are left to C23.  Expected FALSE in full (section 4).
* C74 is C72 for the call hierarchy (`Verif/Spec/SameCalls.lean`): functions at the same place of the two trees have the same
  incoming and outgoing calls in the same order, with the same names and details, and the ranges of the items and of the calls
  correspond.  The requests are made with the ranges of the functions and are answered.  The URI and the kind of the items are
  constants and not compared.
* C75 is C72 for go-to-definition and find-references (`Verif/Spec/SameNav.lean`): with the cursor on tokens with the same number
  among the tokens other than white space and comments, both requests are answered, with corresponding places in the same
  order.  `Verif/Lemmas/SameNav.lean` also relates the recorded branch targets in order.  An empty answer and none are not told
  apart.  Expected FALSE in full (section 4).
* C76 and C77 are C75 for renaming and for go-to-type-definition and go-to-declaration (`Verif/Spec/SameRename.lean`,
  `Verif/Lemmas/SameRename.lean`).  A renaming with the same new name is refused for the same reason or gives the same edits in
  the same order at corresponding places; the wrong edits of C18 are the same wrong edits in both documents.  Expected FALSE in
  full (section 4).
* C78 is C75 for the requests that start a call hierarchy or a renaming (`Verif/Spec/SamePrepare.lean`).  The code finds the symbol
  of the call hierarchy by its range alone; among symbols the range tells the node (`sym_at`), so the answer does not depend on
  the layout.  Expected FALSE in full (section 4).
* C79 is C75 for selection ranges (`Verif/Spec/SameSelection.lean`): the chain for a token is compared link by link.  The folding
  ranges are left out: a construct folds only if it is on several lines, so they depend on the layout by design.  Expected FALSE
  in full (section 4).
* C80 is C75 for hover (`Verif/Spec/SameHover.lean`): the contents are equal, the range is that of the token.  The documentation of a
  function is made of comments, so the theorem about layouts has the hypothesis that corresponding functions have the same
  documentation (`SameDocs`, by the relation `Documented` of C55).  That the formatter establishes it when comments are not
  formatted is not proved; it would follow from C59 if the tokens and comments of a document, in their order, with the tree without
  its trivia, determine the comments before each function, for which C54 (no node ends, and but for two kinds none begins, with
  white space or a comment) is the basis.  Expected FALSE in full (section 4).
  C70 to C80 are also stated for the formatting of a range and for every other text with the same tokens (`_range_partial`,
  `_text_partial`).
* C55 hover (`Spec/Hover.lean`): the text shown, written as an S-expression built from the declaration, against the entity that
  the index denotes; documentation comments by a relation between the siblings before a function and the lines shown.
* C58 names and keywords offered by completion (`Spec/Keywords.lean`): the contexts of a token by cases on its parent; the lists
  against the lists of the standard by finite checks in the kernel.  Expected FALSE in full (section 4).  `Props/C58Words.lean` adds
  reference types, memory arguments (both directions, over the table of instructions), and the heads of functions and data segments.
* C63 where code actions are offered (`Spec/Offer.lean`): the nodes that the loop visits are exactly those around the selection
  (`Lemmas/Offer.lean`: `rowan`'s search for a child at a range on ordered children), and per node the action is the one the
  specification describes.  Expected FALSE in full (section 4).
* C48 instruction table: finite check over both complete tables in the kernel (this is all of the input space).
* C64 formatting twice (`Spec/Layout.lean`): a layout is any function that prints every document in one of the possible ways.
  Proved for programs (as in C57) of one module without comments and blank lines, whatever the settings and the layout: the
  document handed to the layout is the same the second time.  Three steps: the document depends only on the tree without its
  white space (`Lemmas/Calm.lean`); what is printed has no blank line, shown by a small automaton over documents for each kind of
  node (`CalmRun`, `CalmKinds`, `CalmDoc`); the white space tokens of the new tree lie in the gaps of what was printed
  (`CalmRoot`).  False in general (`C64_params`).  Missing: comments, blank lines, several modules.

## 4. Findings (code violating a property, model/code disagreements)

Each item names the property whose negation is proved with a concrete document, where there is one.

### Parser
* C01: the text `"\u` of an unreadable string is lost from the middle of the tree: `"\u(foo)`.
* C02: text at the end is dropped (form feed, unreadable string).  Dropped text is always reported, with an
  error that spans the whole document.
* C03: debug builds panic on `(; (;` (unterminated nested block comment, winnow's progress assertion).
* C04: `(module (start ))` gives an error range with start 15, end 14.
* C05, C54: a stray `)` after a module gives an error token without a syntax error: `(module))`.
* C41: the apostrophe is not accepted in identifiers (also visible in C19: a rename to `$it's` is refused).
* The underscore check of floats ignores the sign for hexadecimal ones (`-0x1_f.0` is rejected); a number at
  the very end of the input is not read as a number; `v128.const i32x4 ..` is not in the grammar.

* C56: valid documents are rejected: `(call_indirect (param i32))` (a type use without `(type …)` is no operand,
  `C56_callIndirect`), `(block (result i32) (result i64))` (`C56_results`), `f64.const -0x1_a.0` (`C56_float`; without the sign
  it is accepted).  Readings that differ from the grammar's: an identifier after a block without a label is taken as its label, also
  where it is an operand of the next instruction or the first index of an element list; `(elem $a)` is a segment named
  `$a`.

### Positions
* C08: a column past the end of a line is not clamped; past the end of the tree `token_at_offset` panics.
  The same happens for positions inside the document when the parser has dropped text.
  A range panics when the offsets of its ends are in the wrong order, which an over-long column of the first end brings about
  even when its line is before that of the second (`C08_false_range`).
* C09: columns are bytes although no position encoding is negotiated.
* C45: text lost from the middle plus a multi-byte character makes `line_col` panic while diagnostics are
  collected: `(module "\u(foo)) (;é;)(module)`.
* `u32` addition of line start and column could wrap for huge columns (not modelled: `Nat`).

### Binder
* C10, C12: one counter numbers all fields of a module, whatever their kind, so `(module (type (func))
  (func (call 0)))` does not resolve and `call 1` resolves wrongly.
* Exported globals, indices in element segments, data/elem indices and the table operand of `call_indirect`
  are not bound.
* C14: the chain of blocks breaks at `then`/`else` and at operands; a branch in the condition of an `if`
  resolves to that `if`.  `block .. end $x` gets the name `$x`.
* Indices `-1`, `0x10`, `1_000` make no symbol; `+1` is read as 1.
* C11, C61, C62: with two locals of one name, go-to-definition answers with the first, while find-references treats both as
  the declaration of every use of the name.
* C50: go-to-declaration is documented as available for function calls only, but answers for globals, tables and so on too.
* C51: `(func $f (type 0))` before the first type: go-to-type-definition on `call $f` has an empty answer.
* C49: a function with only `(type $t)` counts its locals from 0: the parameters of the type are left out.

### Checkers
* C15: `br 0` outside of any block and `call -1` are not reported; with the shared counter `(call 0)` is reported
  though defined.
* C16: a function and a global of one name are reported; two tables of one name are not; a label that
  shadows one label is not (two are needed); labels clash with parameters and locals.
* C40: `call -1` passes as an index; constants are not range-checked; several instructions with immediates
  (`call_indirect`, `br_table`, `return_call`, `v128.load32_zero`, ..) are not in the table.
* C46: references of a block list all branches nested directly in it, whatever they refer to.
* C30/C31: `select` is in the instruction table twice; the second entry (one immediate) wins, so
  `(select (a) (b) (c))` is reported.  Loads and stores count one immediate, so `(i32.load (i32.const 0))` and one
  with both `offset=` and `align=` are reported.  `i8x16.shuffle` and `v128.const` count one immediate.  Blocks
  have no type.  There is no polymorphic stack after `unreachable`/`br`/`return`.  Results of functions are
  not checked; types of arguments of `local.set`/`global.set` are not checked.  For `call`, parameters are
  zipped with declared parameter symbols, so a function with only `(type $t)`, or an imported one, takes none and
  its arguments are reported.  A call of a function without parameters and results is not checked.  A literal
  after the index of a folded call counts as an argument: `(call $f 42)` is accepted for one parameter.
* The types and opcodes of all 424 entries of the instruction table agree with the standard (C48).

### Rename
* C18: the filter compares the name of the renamed symbol with itself, so every named symbol of the right
  kind in scope is edited; renaming a label directly in a function also edits parameters and locals.  Renaming a
  block edits the operands of all branches directly inside it, wherever they branch to, and leaves branches from
  inside an `if` as they are (`C18_missed`); renaming a branch operand edits all blocks directly around it.
* C69: consequently renaming a function and back gives every function of the module its name (`C69_false`).

### Semantic tokens
* C23: an answer for a range counts columns from the first token of the range, but the client counts them from the
  beginning of the line: for `(module (func))` from column 8, `func` is seen at column 1 (the repository's snapshot
  `range_not_boundary` shows the same).  A string with an escaped line break loses a line; a following string on the next
  line can make `col - prev_start` underflow (debug: panic, release: wraps): `(module (data "\⏎" ""))`.  The same loss
  happens after a block comment that spans lines if the client does not know comments.
* A second `initialize` without the capability keeps the old token types but announces an empty legend (not reachable
  with the server's handshake; C24 excludes it by its hypothesis).

### Call hierarchy, inlay hints, code actions
* A range whose end lies before its start makes all three panic (`TextRange::new`).
* C27: the hint at a numeric global index shows the type of another global; with columns past the end of a line a range
  takes in hints of the lines below.
* C28: splitting `(result i32 f64)` of a block gives `(result i32) (result f64)`, but the grammar reads one group there: the
  second is a syntax error.  Splitting and joining drop comments and skipped tokens in the replaced text.
* C29: after a broken string escape the offsets of the tree are shifted and the fix deletes a letter.  The fix is also
  offered for `align = -1` and for `align =` with nothing after it, and glues `align =1 2` into `align=12`.
* C63: a request for the kind `refactor` gets no rewrites, though kinds are hierarchical in the protocol (`C63_rewrite_false`).
  Joining is offered for a single group, where it does nothing (`C63_join_false`).  The memory-argument fix is offered for
  folded instructions only: after a flat `i32.load`, `offset =1` is read as an instruction `offset` and junk (`C63_fix_false`).
  The fix also deletes the blank behind `=1` when a number follows, so `offset =1 2` becomes `offset=12` (`C63_inside_false`):
  `check_after_eq` is called also where the digits stand right behind `=`.
  At the end of the results of an `if` without instructions nothing is offered: the empty `then` node is found
  (`C63_rewrite_missed`).

### Completion
* C39: entities without a name are offered by the shared counter of C12: `(module (type (func)) (func (call 0)))` offers `1`.
  The label of an `if` is offered in its condition.  There is no completion in `(memory ..)` of a data segment, `(table ..)` of
  an element segment and its functions.
* C58: the list of instruction names offers `i8x16.mul`, which does not exist (`C58_unknown`), and lacks about 185 existing ones
  (`C58_missing`: `table.get`, `ref.null`, `memory.copy`, `i32.trunc_sat_f32_s`, many vector instructions).  In the keyword of a
  complete part, `(mod|ule)`, completion offers what may stand inside the part (`func`, `type`, ..), not `module`
  (`C58_keywords_false`).  At the type of an element segment (`(elem funcref)`) nothing is offered, though both reference types are
  at the type of a table (`C58_refTypes_false`).  In a function or data segment the same keywords are offered after every
  opening parenthesis, also those that may not follow any more (`C58_body_false`: `param` after the results).  After an opening
  parenthesis in a block or a folded instruction nothing is offered (`C58_open_false`).

### Server
* Requests with an unknown method or with malformed parameters get no response at all (C37).
* Only the first content change of a change notification is used; the text of a closed document is kept.
* A request for a document that was never opened panics.

### Incremental computation
* `SymbolItem` equality looks at key and kind only (binder.rs:605), so a symbol table with other names or types at the same
  places counts as unchanged for `salsa`.  Answers are right all the same (C36) because the only memoized query that reads the
  table, `get_func_sig`, reads the tree before it, whose equality is exact.
* The order of the diagnostics for duplicated names is that of a hash map keyed by interned names (dup_names.rs:38), so it
  depends on what was committed before: with `(module (func $a) (func $a) (func $b) (func $b))` it depends on which of the
  names an earlier text had first (`C36_order_false`).  That the map of the code is one the theorem is about (two keys found in
  an order that does not follow their insertion) is a trusted reading of `hashbrown`: iteration follows the buckets, and the
  bucket of a key that collides with no other follows its hash.

### Formatter
Documents without a syntax error that formatting changes:
* `shared`/`unshared` of limits is not printed (ty.rs:73-91);
* of several imports of a function only the first is printed, and `(func (export "a") (import "b" "c"))` gets the import first;
* a trailing label without a leading one moves: `(block) $a` becomes `(block $a)`, `block end $a` becomes `block $a end`;
* a string that is not closed on its line is one token without a recorded error; what follows it on a line of its own ends
  up on the same line;
* comments are lost: between a parameter and a result of a type use without index (module.rs:1219-1247, `C59_result`), at the
  start of the unparenthesised `then` part (`C59_if_block`, `C59_if_line`), between a limit and `shared`.
Documents with errors: a missing `)` is added.
* C64: formatting is not idempotent.  `(func (param i32)` and, after an empty line, `(result i32))` is printed as
  `(param i32)(result i32)` and, the second time, as `(param i32) (result i32)`: module.rs:1219-1256 pushes neither the trivia
  nor the separator before the first result of a type use without parenthesis when trivia is pending (`C64_params`).

### Other features
* C65: documents without a reported error that are no programs: `(module))` (the last parenthesis is an error token without an
  error), `(export "a` with the string ended by the line, `(func end)` (any word that is not read otherwise names an
  instruction, also `offset=1`).
* C66: renaming `$a` in `(module (func $a) (func $b) (start $a))` to `$c` gives two functions `$c`; the start function is then
  ambiguous (`C66_false`; the cause is the finding of C18).
* C67: a function with two imports is formatted into one with the first import only (`C67_imports`; the cause is the finding of C34).
* C68: the same when only the range of the function is formatted (`C68_imports`).
* C70: in `(module (data "abc` + line break + `)(func))` the string is not closed before the end of its line, which the parser accepts
  without an error (token.rs:194); the formatter prints the parenthesis after the string on the same line, so that it becomes
  a part of the string, and the formatted document has syntax errors (`C70_string`).  `C70_partial` excludes such strings
  (`TokensFine`).
* C71: in the same document the function vanishes from the outline when the document is formatted (`C71_string`).
* C72 to C79: the same document has syntax errors when formatted (`C72_false`, `C73_false`, `C74_false`, `C75_false`, `C76_false`,
  `C77_false`, `C78_false`, `C79_false`).
* C80: fails for the same document (`C80_false`), and, with the setting `format_comments`, for documentation comments: the
  formatter puts a blank behind the first two semicolons unless there is one (printer/mod.rs:255-263), so `;;; adds` becomes
  `;; ; adds`, and hover no longer shows it, because it looks for comments that begin with `;;;` (`C80_documentation`, proved for the
  document `C80_doc`).
* C52: the parser loses three characters of `(module "\u(foo))(;é;)` (the cause is the finding of C01); the length of the tree is then an
  offset inside `é`, and formatting the document panics (`C52_false_document`); in `(module "\u(foo)) (;é;)(module)` formatting the range of the
  second module does (`C52_false_range`).
* C53: formatting `"\u(foo)` replaces the five characters of the tree and leaves `oo)` behind the formatted document (`C53_false`).
* C55: hover on a call by number shows the function that the shared counter of C12 finds:
  `(module (type (func)) (func $f) (func $g (call 1)))` shows `$f`.  The index of a call to nothing gets an empty hover instead
  of none; memories, tables and labels get none (`C55_silent`).  Blank documentation lines at the end are dropped; a `;;;`
  comment on the line of the previous function's end is shown as documentation of the next one.
* Selection range: positions without a token are dropped, so answers do not line up with the positions asked.
* Document symbols: a module that declares nothing is not shown (`C25_module_missing`); the order of the modules is that of
  a hash map.

## 5. Model validation

Outside of the committed proofs the model is executed and compared with the repository's own fixtures (this
is testing, not proof):
* parser: all 41 fixtures of `crates/parser/tests/parse`, tree and error positions: 41/41 agree;
* navigation (definition, references, rename, highlight, folding, selection range): 162/162;
* diagnostics: 46/46;
* semantic tokens: all 3 snapshots;
* document symbols: the one snapshot (up to the order of the modules);
* code actions: all fixtures;
* hover: all 31 snapshots;
* completion: all 129 snapshots, every item with label, kind, inserted text, detail and documentation (the order of the
  items is not compared), and the two tests that expect no answer;
* call hierarchy: all 12 snapshots; inlay hints: all 4;
* formatting requests: the two snapshots with spaces and the two of ranges (the one with tabs differs only in what
  `tiny_pretty` prints for an indentation);
* formatter: all 41 fixtures that are the parser's and all 3 of its own, text for text, with a small layout engine.

Mutation testing of the theorems is logged in `seeded/LOG.jsonl`.
