{"id": "C01", "title": "Slicing a text composes and never reads outside", "statement": "Slicing a text view by an in-bounds range succeeds and yields exactly the bytes of that range; slicing the result again equals slicing the original view once with the shifted range; an out-of-bounds range is rejected instead of returning bytes outside the view, even when the underlying buffer is longer than the view.", "quantifier": "every buffer, every view of it, every pair of nested ranges", "why_tests_cant": "The claim ranges over an unbounded set of inputs; a test fixes finitely many of them.", "anchors": ["fall/text/src/text.rs: Text::slice, Text::len", "fall/text/src/text_slice.rs: TextSuffix", "fall/text/src/text_range.rs: TextRange"]}
{"id": "C02", "title": "Range containment and overlap have their interval meaning", "statement": "is_subrange_of is inclusion of the offsets a range covers, intersects holds exactly when two ranges share a byte for non-empty ranges, glue of two adjacent ranges covers exactly the bytes of both, and shift_right moves every covered offset by the shift.", "quantifier": "all pairs of ranges and all offsets", "why_tests_cant": "The claim ranges over an unbounded set of inputs; a test fixes finitely many of them.", "anchors": ["fall/text/src/text_range.rs: is_subrange_of, intersects, disjoint, glue, shift_right, contains_offset_nonstrict"]}
{"id": "C03", "title": "Comparison of ranges is a strict order consistent with equality", "statement": "partial_cmp on ranges: Equal exactly for equal ranges, Less/Greater are mutually inverse, Less is transitive and irreflexive. (Holds for non-empty ranges; fails for empty ranges.)", "quantifier": "all triples of ranges, including empty ones", "why_tests_cant": "The claim ranges over an unbounded set of inputs; a test fixes finitely many of them.", "anchors": ["fall/text/src/text_range.rs: PartialOrd for TextRange"]}
{"id": "C04", "title": "An edit script built in order applies as the intended splice", "statement": "For any sequence of insert/delete/replace requests, building and applying the edit gives the text in which every requested range is replaced by the requested string and every byte outside the ranges is kept in order; building panics exactly when a request starts before the end of the previous one or a request reaches past the end of the text.", "quantifier": "every text and every finite sequence of edit requests", "why_tests_cant": "The claim ranges over an unbounded set of inputs; a test fixes finitely many of them.", "anchors": ["fall/text/src/text_edit.rs: TextEditBuilder::{insert,delete,replace,build,advance_to}, TextEdit::apply"]}
{"id": "C05", "title": "Applying an edit gives a text of predictable length and is insensitive to script splitting", "statement": "The length of the result of applying an edit is the sum of its inserted and copied lengths; applying a script is the concatenation of applying its parts; apply panics exactly when some copied range is out of bounds.", "quantifier": "every text and every edit script, including overlapping and out-of-order copies", "why_tests_cant": "The claim ranges over an unbounded set of inputs; a test fixes finitely many of them.", "anchors": ["fall/text/src/text_edit.rs: TextEdit::apply"]}
{"id": "C06", "title": "Editor edit lists and internal edit scripts agree", "statement": "Turning an internal edit into the list of {delete, insert} records sent to the editor and applying these records to the document gives the same text as applying the edit internally, provided copies are in order and the script ends with a copy that reaches the end of text; without that final copy a trailing deletion is lost.", "quantifier": "every text and every ordered edit script", "why_tests_cant": "The claim ranges over an unbounded set of inputs; a test fixes finitely many of them.", "anchors": ["code/generic_backend/src/lib.rs: to_vs_edits", "fall/tree/src/edit.rs: FileEdit::into_text_edit", "fall/text/src/text_edit.rs: TextEdit::apply"]}
{"id": "C07", "title": "Edits received from the editor are applied as a splice", "statement": "Converting an ordered list of {delete, insert} records received from the editor into an internal edit and applying it replaces exactly these ranges.", "quantifier": "every text and every ordered list of edit records", "why_tests_cant": "The claim ranges over an unbounded set of inputs; a test fixes finitely many of them.", "anchors": ["code/generic_backend/src/lib.rs: from_vs_edits", "fall/text/src/text_edit.rs: TextEditBuilder"]}
{"id": "C08", "title": "Randomly generated edits are always applicable", "statement": "Any pair of 32-bit end points scaled to a text length gives a valid in-bounds range, scaling is monotone, maps 0 to 0 and the maximum to the text length; hence a generated edit applies to the text without panicking.", "quantifier": "all 32-bit end points, all text lengths, all generated operation lists", "why_tests_cant": "The generator is itself the source of the test inputs; no run of it covers all end points.", "anchors": ["fall/text/src/prop.rs: range, scale_range, scale, ArbTextEdit::as_text_edit"]}
{"id": "C09", "title": "Trimming removes exactly the surrounding whitespace", "statement": "trim returns a sub-view without leading or trailing whitespace characters, removes only whitespace, keeps character boundaries for multi-byte characters, and is idempotent.", "quantifier": "every string of Unicode characters", "why_tests_cant": "The claim ranges over an unbounded set of inputs; a test fixes finitely many of them.", "anchors": ["fall/text/src/text.rs: Text::trim"]}
{"id": "C10", "title": "Tokens tile the text", "statement": "Lexing any text with any lexer that always makes progress terminates and returns non-empty tokens whose lengths sum to the text length, each token being what the lexer says at its own start offset.", "quantifier": "every text, every lexer that returns a positive in-bounds length", "why_tests_cant": "The claim ranges over an unbounded set of inputs; a test fixes finitely many of them.", "anchors": ["fall/parse/src/lex_engine.rs: lex, Lexer::step"]}
{"id": "C11", "title": "Incremental relexing equals lexing from scratch", "statement": "For every lexer whose non-error tokens are determined by their own text plus one following byte, relexing the old tokens through any applicable edit gives exactly the tokens of lexing the new text from scratch, including overlapping, reordered and empty copies.", "quantifier": "every old text, every edit script, every such lexer", "why_tests_cant": "Equality of two algorithms over all edit histories; the random test in the repo samples edits of one grammar.", "anchors": ["fall/parse/src/lex_engine.rs: relex, lex"]}
{"id": "C12", "title": "One byte of lookahead is necessary for incremental relexing", "statement": "For lexers that look further ahead the incremental result can differ from lexing from scratch: there is a deterministic, progressing lexer, a text and an edit for which relex returns different tokens.", "quantifier": "existence of a lexer/text/edit (negative boundary of C11)", "why_tests_cant": "Shows that the hypothesis of C11 cannot be dropped; tests of shipped grammars do not reveal which lexers are safe.", "anchors": ["fall/parse/src/lex_engine.rs: relex"]}
{"id": "C13", "title": "The relexed region metric is honest", "statement": "The number reported as relexed region is at most the new text length and, unless an error token forces a full relex, equals the new length minus the length of tokens taken over from the old token list.", "quantifier": "every old token list, edit and new text", "why_tests_cant": "The claim ranges over an unbounded set of inputs; a test fixes finitely many of them.", "anchors": ["fall/parse/src/lex_engine.rs: relex (relexed_region)"]}
{"id": "C14", "title": "Tree building yields a consistent tree", "statement": "For every well-bracketed sequence of start/leaf/finish calls the built file has its root at the first node, every child knows its parent and is listed exactly once by it, children lie one after another and exactly fill their parent, and the root covers the sum of leaf lengths; no call panics.", "quantifier": "every well-bracketed call sequence of any depth and length", "why_tests_cant": "The claim ranges over an unbounded set of inputs; a test fixes finitely many of them.", "anchors": ["fall/tree/src/node/tree_builder.rs: TreeBuilder", "fall/tree/src/node/imp.rs: NodeImpl::{parent,children,range}, new_file"]}
{"id": "C15", "title": "Unbalanced building is rejected", "statement": "Building panics on a finish without a start, on a leaf outside of any node, on an unfinished node, and never returns an inconsistent file instead.", "quantifier": "every call sequence", "why_tests_cant": "The claim ranges over an unbounded set of inputs; a test fixes finitely many of them.", "anchors": ["fall/tree/src/node/tree_builder.rs: TreeBuilder::{leaf,finish_internal,finish}"]}
{"id": "C16", "title": "A file's leaves spell its text", "statement": "Concatenating the texts of the childless nodes of a built file in document order gives back the whole file text, and the text of any node is the concatenation of the texts of its children.", "quantifier": "every built tree and every text of matching length", "why_tests_cant": "The claim ranges over an unbounded set of inputs; a test fixes finitely many of them.", "anchors": ["fall/tree/src/node/imp.rs: NodeImpl::text", "fall/tree/src/node/tree_builder.rs: TreeBuilder"]}
{"id": "C17", "title": "Leaf lookup at an offset is total and exact", "statement": "For every consistent tree and every offset inside its root range, find_leaf_at_offset does not panic and returns exactly the non-empty leaves touching the offset: none iff the root is empty, one strictly inside a leaf or at the file boundary, two exactly at a boundary between two leaves, left before right.", "quantifier": "every consistent tree, every offset in range", "why_tests_cant": "The claim ranges over an unbounded set of inputs; a test fixes finitely many of them.", "anchors": ["fall/tree/src/search.rs: find_leaf_at_offset, is_leaf, LeafAtOffset"]}
{"id": "C18", "title": "The covering node covers and is smallest", "statement": "find_covering_node never panics for an in-range range, returns a node whose range includes the given range, and for a non-empty range no child of the returned node includes it.", "quantifier": "every consistent tree and every range inside the root", "why_tests_cant": "The claim ranges over an unbounded set of inputs; a test fixes finitely many of them.", "anchors": ["fall/tree/src/search.rs: find_covering_node, common_ancestor"]}
{"id": "C19", "title": "Ancestor chains end at the root and common_ancestor finds the lowest common one", "statement": "From every node the ancestor iteration is finite, starts at the node, goes up through parents with growing ranges and ends at the root; common_ancestor returns the lowest node that is an ancestor of both arguments and never panics.", "quantifier": "every consistent tree and all pairs of nodes", "why_tests_cant": "The claim ranges over an unbounded set of inputs; a test fixes finitely many of them.", "anchors": ["fall/tree/src/search.rs: ancestors, Ancestors, common_ancestor"]}
{"id": "C20", "title": "Sibling navigation is inverse", "statement": "The right sibling of the left sibling of a node is the node itself and vice versa; a missing sibling is reported exactly at the first/last child and at the root; adjacent siblings have adjacent ranges.", "quantifier": "every consistent tree and every node", "why_tests_cant": "The claim ranges over an unbounded set of inputs; a test fixes finitely many of them.", "anchors": ["fall/tree/src/search.rs: sibling, child_position"]}
{"id": "C21", "title": "Subtree traversals visit every node exactly once, children first", "statement": "subtree and bottom_up visit exactly the descendants of a node, each once, every node after all its descendants, siblings left to right.", "quantifier": "every consistent tree and every node", "why_tests_cant": "The claim ranges over an unbounded set of inputs; a test fixes finitely many of them.", "anchors": ["fall/tree/src/search.rs: subtree, traversal::bottom_up", "fall/tree/src/visitor.rs: process_subtree_bottom_up"]}
{"id": "C22", "title": "A structural edit never panics and touches only the named nodes", "statement": "For every consistent tree and every set of delete/replace/insert-after requests, into_text_edit does not panic, and the resulting text is the file text where deleted nodes are cut out, replaced nodes are substituted and insertions follow their anchor; everything else is kept verbatim; with no requests the text is unchanged. When requests conflict, a deletion wins over a replacement, both win over an insertion after the same node, requests inside a deleted or replaced node are dropped, and of several requests of one kind for one node the first wins.", "quantifier": "every consistent tree and every list of requests, including nested, duplicate and conflicting ones", "why_tests_cant": "The claim ranges over an unbounded set of inputs; a test fixes finitely many of them.", "anchors": ["fall/tree/src/edit.rs: FileEdit::{delete,replace_with_text,insert_text_after,into_text_edit,text_edit_for_node}"]}
{"id": "C23", "title": "replace_substring replaces exactly the range", "statement": "replace_substring on its own produces an edit whose application replaces exactly the bytes of the range.", "quantifier": "every consistent tree, every in-range range, every replacement text", "why_tests_cant": "The claim ranges over an unbounded set of inputs; a test fixes finitely many of them.", "anchors": ["fall/tree/src/edit.rs: FileEdit::replace_substring", "fall/tree/src/search.rs: find_covering_node"]}
{"id": "C24", "title": "A rule that fails leaves no trace in the output", "statement": "Whenever parsing an expression fails, the events produced so far are exactly those before the attempt, and whatever the outcome, the active contexts, the rule arguments and the lookahead mode are restored.", "quantifier": "every grammar, every token sequence, every starting parser state, every expression", "why_tests_cant": "Ranges over all grammars and all inputs; backtracking bugs show only for particular alternatives.", "anchors": ["fall/parse/src/syn_engine/expr.rs: parse_expr, parse_expr_inner and all parse_* functions", "fall/parse/src/syn_engine/parser.rs: mark, rollback"]}
{"id": "C25", "title": "Lookahead produces no output", "statement": "Parsing any expression in lookahead (negation, layer bounds, with_skip first set) does not add, remove or change output events.", "quantifier": "every grammar, token sequence, state and expression (without a reparse cache)", "why_tests_cant": "Ranges over all grammars and inputs.", "anchors": ["fall/parse/src/syn_engine/expr.rs: parse_expr_pred, parse_not, parse_layer, parse_with_skip", "fall/parse/src/syn_engine/parser.rs: event, predicate_mode"]}
{"id": "C26", "title": "Successful parsing accounts for every consumed token exactly once", "statement": "When an expression succeeds it moves forward within the current layer, appends a properly nested group of events, and the tokens recorded by the appended events are exactly as many as were consumed.", "quantifier": "every grammar, token sequence, state and expression", "why_tests_cant": "Ranges over all grammars and inputs.", "anchors": ["fall/parse/src/syn_engine/expr.rs", "fall/parse/src/syn_engine/pratt.rs", "fall/parse/src/syn_engine/parser.rs"]}
{"id": "C27", "title": "A finished parse covers all tokens", "statement": "Whenever parsing a file completes, the event stream is one tree rooted at the start rule's node, containing every significant token exactly once in order, unparsed leftovers being wrapped in one trailing ERROR node.", "quantifier": "every grammar whose start rule is a public rule, every token sequence", "why_tests_cant": "Ranges over all grammars and inputs.", "anchors": ["fall/parse/src/syn_engine/expr.rs: parse"]}
{"id": "C28", "title": "Re-nesting by forward parents is sound", "statement": "Turning the event stream with forward-parent links into a plain event stream always terminates for streams produced by the parser, keeps all tokens in order, yields a properly nested stream, and makes each linked parent the parent of everything from the linked node up to its own original start.", "quantifier": "every event stream produced by the parser, with any nesting and chaining of links", "why_tests_cant": "Chains of links of every length and nesting have to be handled.", "anchors": ["fall/parse/src/syn_engine/convert.rs: reshuffle_events", "fall/parse/src/syn_engine/parser.rs: forward_parent"]}
{"id": "C29", "title": "Converting events to a tree loses no text", "statement": "Converting a complete event stream to tree-building calls for any whitespace binder that returns at most the number of tokens offered does not panic, is well bracketed, and emits every raw token's length exactly once in order, whitespace included.", "quantifier": "every token list, every complete event stream, every such binder", "why_tests_cant": "The claim ranges over an unbounded set of inputs; a test fixes finitely many of them.", "anchors": ["fall/parse/src/syn_engine/convert.rs: convert, Convertor::{go,fill}"]}
{"id": "C30", "title": "Whitespace is attached outside of inner nodes unless the binder asks for it", "statement": "With a binder that returns zero for a node type, a node of that type other than the root never begins or ends with a whitespace token produced by the converter; whitespace at the ends of the file belongs to the root.", "quantifier": "every token list and event stream", "why_tests_cant": "The claim ranges over an unbounded set of inputs; a test fixes finitely many of them.", "anchors": ["fall/parse/src/syn_engine/convert.rs: Convertor::{go,fill,collect_tokens_for_binder}", "fall/parse/src/lib.rs: ParserDefinition::parse"]}
{"id": "C31", "title": "Parsing is lossless end to end", "statement": "Whenever parsing a text completes, the resulting file is a consistent tree whose root covers the whole text and whose leaves spell the text.", "quantifier": "every text, every progressing lexer, every grammar with a plain public start rule, every bounded whitespace binder", "why_tests_cant": "The product of all grammars and all inputs.", "anchors": ["fall/parse/src/lib.rs: parse, ParserDefinition::parse", "fall/parse/src/syn_engine", "fall/parse/src/lex_engine.rs", "fall/tree/src/node/tree_builder.rs"]}
{"id": "C32", "title": "The parser terminates on every input for well-formed grammars", "statement": "For grammars without left recursion and without repetition of expressions that can match nothing, parsing any token sequence terminates.", "quantifier": "every grammar satisfying the static condition, every token sequence", "why_tests_cant": "Termination on all inputs cannot be observed by running tests.", "anchors": ["fall/parse/src/syn_engine/expr.rs: parse_rep, parse_with_skip, parse_call", "fall/parse/src/syn_engine/pratt.rs: pratt_go"]}
{"id": "C33", "title": "The parser does not panic for statically checkable grammars", "statement": "For grammars satisfying a static check (references in range, fewer than 16 contexts and parameters, start rule that cannot fail, linked nodes starting with a public node, no links or replacements in lookahead) parsing any token sequence does not panic.", "quantifier": "every grammar satisfying the check, every token sequence", "why_tests_cant": "Absence of panics on all inputs cannot be tested exhaustively.", "anchors": ["fall/parse/src/syn_engine/expr.rs", "fall/parse/src/syn_engine/pratt.rs", "fall/parse/src/syn_engine/parser.rs"]}
{"id": "C34", "title": "Shipped grammars are total", "statement": "The shipped grammars that pass the check (e.g. the S-expression test grammar and Fall's own grammar) parse every text to a lossless tree without panic or divergence; grammars whose start rule can fail (arithmetic test grammar, JSON) panic on the empty text.", "quantifier": "every text, for each of the concrete shipped grammars", "why_tests_cant": "All texts.", "anchors": ["fall/test/src/sexp.rs", "fall/test/src/arith.rs", "lang/json/src/json.rs", "lang/fall/syntax/src/fall.rs", "fall/parse/src/syn_engine/expr.rs: parse"]}
{"id": "C35", "title": "Choice is ordered and sequence is sequential", "statement": "On the fragment of tokens, sequence, ordered choice, optional, repetition, negation, end-of-input and any-token the parser recognises exactly what the declarative semantics of parsing expression grammars says: same success/failure and same consumed length.", "quantifier": "every grammar in the fragment, every token sequence", "why_tests_cant": "Agreement with a declarative semantics for all grammars and inputs.", "anchors": ["fall/parse/src/syn_engine/expr.rs: parse_or, parse_and, parse_opt, parse_rep, parse_not, parse_eof, parse_token"]}
{"id": "C36", "title": "Optional and repeated rules never fail and repetition is maximal", "statement": "An optional or repeated expression never makes its surroundings fail, and after a repetition the body fails at the position reached.", "quantifier": "every grammar, input and state", "why_tests_cant": "The claim ranges over an unbounded set of inputs; a test fixes finitely many of them.", "anchors": ["fall/parse/src/syn_engine/expr.rs: parse_opt, parse_rep"]}
{"id": "C37", "title": "Commit turns a late failure into an error node", "statement": "A sequence with a commit point after k parts fails only if one of the first k parts fails; if a later part fails, the sequence succeeds where that part was tried and adds exactly one empty ERROR node.", "quantifier": "every grammar, input and state", "why_tests_cant": "The claim ranges over an unbounded set of inputs; a test fixes finitely many of them.", "anchors": ["fall/parse/src/syn_engine/expr.rs: parse_and"]}
{"id": "C38", "title": "A layer confines its body", "statement": "A layer expression succeeds exactly when its bounding expression does, ends exactly where the bound ended, the body sees only tokens before that point, and tokens the body leaves over are wrapped in one ERROR node.", "quantifier": "every grammar, input and state", "why_tests_cant": "The claim ranges over an unbounded set of inputs; a test fixes finitely many of them.", "anchors": ["fall/parse/src/syn_engine/expr.rs: parse_layer", "fall/parse/src/syn_engine/parser.rs: cut_suffix, bump"]}
{"id": "C39", "title": "Skipping recovery only skips what cannot start the body", "statement": "with_skip either parses its body at the first position where the first set matches and the body succeeds, with all skipped tokens in exactly one ERROR node directly before it, or fails after trying every position up to the end of the layer.", "quantifier": "every grammar, input and state", "why_tests_cant": "The claim ranges over an unbounded set of inputs; a test fixes finitely many of them.", "anchors": ["fall/parse/src/syn_engine/expr.rs: parse_with_skip"]}
{"id": "C40", "title": "Operator precedence and associativity", "statement": "For an operator table over single-token operators, the tree built groups higher priority operators tighter, equal priorities to the left, prefix operators over operands of at least their priority, for every operator expression.", "quantifier": "every operator table and every token sequence of operands and operators", "why_tests_cant": "Expressions of unbounded length.", "anchors": ["fall/parse/src/syn_engine/pratt.rs: pratt_go, pratt_prefix", "fall/parse/src/lib.rs: PrattTable::infixes"]}
{"id": "C41", "title": "Tokens selected by text cover exactly that text", "statement": "A contextual token succeeds only if the text at the current position starts with the given string and the string ends at a token boundary; it then consumes exactly the tokens making up the string (when these are adjacent), never part of a token.", "quantifier": "every text, token list, position and contextual string", "why_tests_cant": "The claim ranges over an unbounded set of inputs; a test fixes finitely many of them.", "anchors": ["fall/parse/src/syn_engine/parser.rs: bump_by_text"]}
{"id": "C42", "title": "A cache hit must agree with parsing to be invisible", "statement": "If every entry of the reparse cache records what parsing that rule at that place would produce, then reparsing with the cache gives the same events and position as parsing without it.", "quantifier": "every grammar, token sequence and sound cache", "why_tests_cant": "All combinations of cached fragments and inputs.", "anchors": ["fall/parse/src/syn_engine/parser.rs: get_from_cache, start_cached, finish_cached", "fall/parse/src/syn_engine/expr.rs: parse_cached"]}
{"id": "C43", "title": "Salvaged fragments point at unchanged text", "statement": "Every fragment salvaged for reuse carries the offset in the new text of a verbatim copy of the fragment's old text, its event slice and its exact token count, for edits whose copies are ordered and disjoint; fragments with errors are not salvaged.", "quantifier": "every old event stream and token list, every such edit", "why_tests_cant": "The claim ranges over an unbounded set of inputs; a test fixes finitely many of them.", "anchors": ["fall/parse/src/syn_engine/mod.rs: salvage_segments"]}
{"id": "C44", "title": "Reparsing after an edit equals parsing from scratch", "statement": "Reparsing a file through an edit gives the same tree as parsing the new text from scratch. (Relied upon by the editor; holds without cached rules, and is false in general with cached rules.)", "quantifier": "every grammar, old text and edit", "why_tests_cant": "The repo's property test samples random edits of one grammar.", "anchors": ["fall/parse/src/lib.rs: reparse", "lang/fall/syntax/tests/prop.rs", "fall/parse/src/syn_engine/mod.rs: salvage_segments", "fall/parse/src/syn_engine/parser.rs: get_from_cache"]}
{"id": "C45", "title": "Line/column translation is exact", "statement": "The line index maps every offset of a text to the line whose text contains it and the distance from the line start; lines partition the text; offsets and line/column pairs correspond one to one.", "quantifier": "every text and every offset", "why_tests_cant": "The claim ranges over an unbounded set of inputs; a test fixes finitely many of them.", "anchors": ["lang/rust/src/editor/line_index.rs: LineIndex"]}
{"id": "C46", "title": "Fuzzy symbol matching is subsequence matching", "statement": "The automaton used for symbol search accepts a name exactly when the query is a subsequence of it (case handling aside), and early-abandon/early-accept hints never change the answer.", "quantifier": "every query and every name", "why_tests_cant": "The claim ranges over an unbounded set of inputs; a test fixes finitely many of them.", "anchors": ["lang/rust/src/editor/fst_subseq.rs: FstSubSeq"]}
{"id": "C47", "title": "The file index reflects the last event per path", "statement": "After any history of change notifications the index of a watched directory contains for each path the content of the last notification that concerned it. (Holds for file events; fails for removed directories.)", "quantifier": "every finite history of file system notifications", "why_tests_cant": "Histories of unbounded length.", "anchors": ["indxr/src/lib.rs: change, watch"]}
{"id": "C48", "title": "Selection extension strictly grows and ends at the file", "statement": "Repeatedly extending a non-empty selection yields strictly larger ranges containing the previous one and stops exactly when nothing larger exists.", "quantifier": "every consistent tree and every selection", "why_tests_cant": "The claim ranges over an unbounded set of inputs; a test fixes finitely many of them.", "anchors": ["fall/editor/src/extend_selection.rs"]}
{"id": "C49", "title": "Memoised analysis queries return what recomputation returns", "statement": "A query answered by the analysis database, in any order and with any nesting of earlier queries, equals the value computed without the cache.", "quantifier": "every finite history of queries", "why_tests_cant": "All query orders.", "anchors": ["lang/fall/src/analysis/db.rs"]}
{"id": "C50", "title": "Name resolution prefers parameters, then rules, then tokens", "statement": "Resolving a name inside a rule gives the rule's parameter if it has one of that name, otherwise the first syntactic rule of that name, otherwise the token of that name, otherwise nothing; the result does not depend on query order.", "quantifier": "every grammar file and every reference in it", "why_tests_cant": "The claim ranges over an unbounded set of inputs; a test fixes finitely many of them.", "anchors": ["lang/fall/src/analysis/query"]}
{"id": "C51", "title": "Swapping elements is an involution that changes nothing else", "statement": "Applying the swap action to two sibling elements exchanges their texts, leaves all other text, including the separator, unchanged, and applying the corresponding swap again restores the text.", "quantifier": "every consistent tree and every pair of adjacent list elements", "why_tests_cant": "The claim ranges over an unbounded set of inputs; a test fixes finitely many of them.", "anchors": ["fall/editor/src/actions.rs", "lang/fall/src/editor/actions/swap_alternatives.rs"]}
{"id": "C52", "title": "Typed lookups find what they promise", "statement": "children_of_type and the typed child iterators return exactly the children of the given types in order; child_of_type returns the first of them; descendants_of_type and the typed descendants return exactly the descendants of the type, each once, in traversal order; the typed ancestor is the nearest ancestor-or-self of the type; the typed node at an offset is the nearest such ancestor of a leaf touching the offset, preferring the left leaf, and is missing only if no leaf touching the offset has such an ancestor.", "quantifier": "every consistent tree, node, node type predicate and in-range offset", "why_tests_cant": "tests look up a few nodes in a few small trees; the claim is about every tree shape, including leaf boundaries and empty nodes", "anchors": ["fall/tree/src/search.rs: child_of_type, children_of_type, descendants_of_type, ast::ancestor, ast::children, ast::descendants_of_type, ast::ast_node_at_offset", "fall/tree/src/ast.rs: AstChildren", "fall/tree/src/visitor.rs: TyVisitor, AstVisitor"]}
{"id": "C53", "title": "A finished parse follows the grammar", "statement": "Whenever parsing a file completes, the tree it describes is a reading of the start rule: each node is the body of a public rule read as a sequence, choice, repetition, option, layer, operator expression, call and so on, with every token of the type or text the grammar asks for; only a trailing ERROR node with the unparsed rest, and the error nodes of committed sequences and skipped tokens, are not part of the grammar.", "quantifier": "every grammar whose start rule is a public rule, every token sequence (without a reparse cache)", "why_tests_cant": "Relates the output to the grammar for all grammars and inputs.", "anchors": ["fall/parse/src/syn_engine/expr.rs", "fall/parse/src/syn_engine/pratt.rs"]}
{"id": "C57", "title": "Symbol search returns exactly the matching symbols", "statement": "For every set of indexed files, a search returns exactly the indexed symbols whose lower-cased name contains the query as a subsequence and which pass the filters given in the query, up to the limit on the number of results; of the symbols of a file whose lower-cased names are equal only the first is indexed.", "quantifier": "every set of files with any symbols, and every query", "why_tests_cant": "Soundness and completeness of the search range over all symbol sets and all queries; a test lists a few names.", "anchors": ["lang/rust/src/editor/symbol_index.rs: Query, FileSymbols, SymbolIndex::query"]}
{"id": "C58", "title": "Analysis queries end", "statement": "No analysis query of a grammar goes round in circles: every query, on every tree, ends with an answer or a panic, and threads that use one cached analysis together cannot run for ever under any interleaving.", "quantifier": "every tree of a grammar file, including broken ones; every number of threads, every sequence of queries and every interleaving", "why_tests_cant": "Termination of mutually recursive, cached queries over all trees and schedules cannot be observed by running a few.", "anchors": ["lang/fall/src/analysis/query", "lang/fall/src/analysis/db.rs"]}
{"id": "C59", "title": "The diagnostics of a grammar are exactly its problems", "statement": "When the diagnostics of a grammar have been collected, exactly the duplicate tokens, unused rules, unresolved references, wrong calls, wrong operator rules and unresolved traits of the file are reported, each at its node with its message and severity; rules of the same name and contexts used only once are reported exactly if the rules or contexts were looked up; the list is sorted with errors first, then by range.", "quantifier": "every consistent tree, any other use of the same analysis by other threads at the same time", "why_tests_cant": "Soundness and completeness of the reports range over all grammars and all query histories.", "anchors": ["lang/fall/src/analysis/mod.rs: collect_all_diagnostics", "lang/fall/src/analysis/query"]}
{"id": "C61", "title": "Calls and contexts of a grammar mean what they say", "statement": "A call resolves to the built-in function of its name, else to the rule of that name if it has parameters, with its arguments matched to the parameters in order, and every wrong number or kind of arguments is reported; contexts are numbered in the order of their names.", "quantifier": "every consistent tree and every call in it", "why_tests_cant": "A test resolves a few calls; the claim is for all calls, names and argument lists.", "anchors": ["lang/fall/src/analysis/query/resolve_call.rs", "lang/fall/src/analysis/query/all_contexts.rs"]}
{"id": "C62", "title": "Operator rules are classified by their attributes", "statement": "A rule with one of the attributes atom, postfix, prefix and bin becomes the corresponding part of an operator expression, with the priority of the attribute, and every body of another shape is reported.", "quantifier": "every consistent tree and every rule in it", "why_tests_cant": "A test classifies a few rules; the claim is for all attribute lists, numbers and bodies.", "anchors": ["lang/fall/src/analysis/query/resolve_pratt_variant.rs"]}
{"id": "C63", "title": "Traits and methods of typed trees are resolved", "statement": "The traits of a node definition are those named after the colon, in order, and unknown names are reported; a method selects the node definition, else the class, else the token of its name, or the text of tokens, with the arity given by its suffix.", "quantifier": "every consistent tree and every node definition and method in it", "why_tests_cant": "A test resolves a few definitions; the claim is for all of them, including unknown and repeated names.", "anchors": ["lang/fall/src/analysis/query/ast_node_traits.rs", "lang/fall/src/analysis/query/resolve_method.rs"]}
{"id": "C54", "title": "Raw strings end at the matching quote and hashes", "statement": "Where a raw string with n hashes begins, the token found is the shortest text ending with a quote and n hashes, and there is none exactly if the text has no such end; with more than 30 hashes the lexer panics.", "quantifier": "every text after the opening quote and every number of hashes", "why_tests_cant": "Tests have a few strings with one or two hashes; the claim is for all contents, including quotes with fewer hashes, and all numbers of hashes.", "anchors": ["lang/fall/syntax/src/fall.rs:189", "lang/rust/syntax/src/rust.rs:572", "fall/test/src/weird.rs:109"]}
{"id": "C55", "title": "Block comments nest", "statement": "Where a block comment begins, the token found is the comment up to its own end, with all the comments inside of it; if it does not end, the rest of the text.", "quantifier": "every text after the opening of a comment", "why_tests_cant": "Nesting is unbounded, and openings and endings may overlap in ways a test does not list.", "anchors": ["lang/rust/syntax/src/rust.rs:579"]}
{"id": "C64", "title": "What the grammar promises is in the tree", "statement": "If a static analysis of the grammar finds that nodes of a type always have a child of given types, or never a child of given types, or are always inside of nodes of another type, then this holds in every tree the parser makes, also for broken texts. It covers the accessors of the Fall and BNF languages for required children, up to those that come after a commit, and names and path segments of the Rust language.", "quantifier": "every grammar, every text, and every lexer that applies the lexical rules", "why_tests_cant": "The accessors unwrap; a test sees whether they do so for a few texts, not that no broken text makes them panic.", "anchors": ["lang/fall/syntax/src/fall.rs:275", "lang/fall/syntax/src/ast_ext.rs:138", "lang/bnf/src/bnf.rs:121", "fall/tree/src/search.rs:24", "lang/fall/src/editor/actions/extract_rule.rs:22"]}
{"id": "C60", "title": "When the analysis panics", "statement": "For every file the parser makes, also from a broken text, the queries of the analysis about its nodes panic in exactly three situations: an operator rule has a name but no body; the traits of a node are asked for while a trait has no name; a method selects an item and an item without a name comes before it. Collecting the diagnostics panics exactly in the first situation, or in the second if there is a node.", "quantifier": "every text, every lexer that applies the lexical rules, every query about a node of the right type", "why_tests_cant": "The accessors the queries use unwrap in dozens of places; a test shows one broken text to be fine, not that no other makes any of them panic.", "anchors": ["lang/fall/src/analysis/query/resolve_pratt_variant.rs:31", "lang/fall/src/analysis/query/ast_node_traits.rs:12", "lang/fall/src/analysis/query/resolve_method.rs:30", "lang/fall/src/analysis/query/resolve_ref_expr.rs:14", "lang/fall/src/analysis/mod.rs:55"]}
{"id": "C65", "title": "The parser generator translates the grammar", "statement": "If the generator succeeds, each rule of the parser it makes says what is written in the grammar at some node of its tree, the first rules are those for the rules of the grammar in their order, and no reference to another rule dangles. What is written at a node is unambiguous.", "quantifier": "every grammar", "why_tests_cant": "The generator flattens nested expressions into a list, pops and overwrites entries; a test compares the output for a few grammars.", "anchors": ["fall/gen/src/generate/codegen.rs:56", "fall/gen/src/generate/codegen.rs:151", "fall/gen/src/generate/codegen.rs:199", "fall/gen/src/generate/codegen.rs:303"]}
{"id": "C66", "title": "The generated parser parses by the grammar as written", "statement": "On every text, the generated parser does exactly what the engine does with the grammar as it is written, taking nodes of the grammar's tree for rules: the same steps, the same tree, the same panics. So its trees are readings of the text by the written grammar.", "quantifier": "every grammar for which the generator succeeds, every text, every budget", "why_tests_cant": "It relates two programs on all texts, for all grammars.", "anchors": ["fall/gen/src/generate/codegen.rs:43", "fall/parse/src/syn_engine/expr.rs:12"]}
{"id": "C67", "title": "Numbers of types and parameters do not clash", "statement": "The node types of the generated parser are the names of the tokens and then of the public rules. Different names get different numbers, no rule mentions another number, and different parameters, also of different rules, get different slots.", "quantifier": "every grammar for which the generator succeeds", "why_tests_cant": "A clash needs a grammar that no test has.", "anchors": ["fall/gen/src/generate/codegen.rs:24", "fall/gen/src/generate/codegen.rs:121", "fall/gen/src/generate/codegen.rs:133", "fall/gen/src/generate/codegen.rs:141"]}
{"id": "C68", "title": "Go to declaration and find usages", "statement": "Going to a declaration follows the innermost use around the caret (a reference, the selector of a method or the name of a called rule) and shows exactly the declaration that the analysis resolves it to; finding usages gives all uses of the declaration at the caret, each once, and nothing else. Panics are characterised: only methods and items in descriptions of trees with nameless nodes or classes.", "quantifier": "every tree, every caret", "why_tests_cant": "A test places the caret in a few grammars; missing or extra usages and panics depend on all combinations of nested nodes.", "anchors": ["lang/fall/src/editor/references/mod.rs:12", "lang/fall/src/editor/references/refdec.rs:44", "lang/fall/src/editor/references/refdec.rs:57", "lang/fall/src/editor/references/refdec.rs:94"]}
{"id": "C69", "title": "The test at the caret", "statement": "Asking for the test at the caret answers the number of the test around the caret among all tests of the file, and nothing if the caret is in no test. It does not panic for parsed files, because tests are only found at the top of a file.", "quantifier": "every parsed text, every caret", "why_tests_cant": "That the unwrap in the search never fails is a fact about all trees the parser can make.", "anchors": ["lang/fall/src/editor/mod.rs:84", "lang/fall/syntax/src/fall.rs:223"]}
{"id": "C70", "title": "Formatting grammars", "statement": "Formatting a grammar never panics, and changes blanks only: newlines, comments and all other characters are kept, in order. What becomes of each space is determined by its neighbours: no space after `<` and before `>`, one space next to `|`, whitespace with newlines is kept.", "quantifier": "every consistent tree; every text the parser accepts", "why_tests_cant": "A test formats a few rules; that no formatting ever loses or reorders characters, whatever is nested or broken, is about all trees.", "anchors": ["lang/fall/src/editor/formatter.rs:5", "lang/fall/src/editor/formatter.rs:30", "lang/fall/src/editor/formatter.rs:44", "lang/fall/src/editor/formatter.rs:74"]}
{"id": "C71", "title": "Extracting a rule", "statement": "Extracting a rule is offered exactly for a non-empty selection whose innermost expression is not a reference. Applied, it replaces the extracted part of that expression by `new_rule`, puts a rule of this name whose body is that part right after the rule around it, and changes nothing else. In parsed grammars it does not panic and can be applied wherever it is offered.", "quantifier": "every consistent tree, every selection in the text; every text the parser accepts", "why_tests_cant": "A test selects a few sequences; that offering and applying agree, and that all other text is kept, is about all trees and selections.", "anchors": ["lang/fall/src/editor/actions/extract_rule.rs:7", "lang/fall/src/editor/actions/extract_rule.rs:34"]}
{"id": "C72", "title": "The outline of a grammar", "statement": "The outline has exactly one entry for every rule with a name, every tokenizer and every description of a tree, with its range. For parsed grammars the entries come in the order of the text and do not overlap.", "quantifier": "every consistent tree; every text the parser accepts", "why_tests_cant": "A test lists the outline of one grammar; missing, repeated or misplaced entries depend on the tree.", "anchors": ["lang/fall/src/editor/structure.rs:8"]}
{"id": "C73", "title": "The colours of a grammar", "statement": "The highlighted spans are exactly those of the nodes of the file: errors, comments, strings, keywords, names, and references, methods and calls by what the analysis resolves them to. Panics are characterised: only methods that may select a node or a class without a name. All spans are in the text, except for an error without a text at its end.", "quantifier": "every tree of the shape that the parser makes; every text the parser accepts", "why_tests_cant": "The colour of a reference depends on the whole file; a test shows the spans of one grammar.", "anchors": ["lang/fall/src/editor/highlighting.rs:9", "fall/editor/src/hl.rs:31"]}
{"id": "C74", "title": "Offered context actions can be applied", "statement": "For a grammar and a selection, asking for the context actions never panics, and an action gives an edit if and only if it is offered. The edit applies to the text.", "quantifier": "every text the parser accepts, every selection in the text, every name of an action", "why_tests_cant": "Offering and applying are separate runs of the same code with another flag; that they agree for all trees is not a matter of examples.", "anchors": ["lang/fall/src/editor/mod.rs:50", "lang/fall/src/editor/mod.rs:61", "lang/fall/src/editor/actions/mod.rs:7"]}
{"id": "C75", "title": "Bracketed parts end at the matching bracket", "statement": "The rule `balanced` reads exactly up to the first closing bracket that belongs to no opening bracket before it, or to the end of the layer if there is none, and it always succeeds. So the bodies and blocks of Fall and the blocks, parentheses, angles and square brackets of Rust begin at an opening bracket and end behind the matching one, whatever is between them.", "quantifier": "every list of tokens, every position, every state of the parser; every grammar with a rule of this shape, and the Fall and the Rust grammar", "why_tests_cant": "Error recovery depends on it for arbitrarily nested and arbitrarily broken input, where the rule backtracks at each level; tests show a few nestings.", "anchors": ["lang/fall/syntax/src/fall.fall:229", "lang/fall/syntax/src/fall.fall:235", "lang/rust/syntax/src/rust.fall:1205", "lang/rust/syntax/src/rust.fall:1217", "fall/parse/src/syn_engine/expr.rs:229"]}
{"id": "C76", "title": "Reparsing Fall files is parsing", "statement": "For a file of the Fall language, reparsing after an edit gives exactly the file and the incremental data that parsing the new text from scratch gives, and does not panic, provided that relexing gives the tokens of the new text; without double quotes in the texts this is always so. The same holds after any sequence of edits.", "quantifier": "every ASCII text, every edit whose copies are in order, every budget, every lexer that takes the longest token of the rules of the language, every sequence of edits", "why_tests_cant": "Fragments of the old tree are reused where their text did not change. That this never changes the result depends on the grammar, on the lexer and on everything around the fragment; tests reparse a few files.", "anchors": ["fall/parse/src/lib.rs:208", "fall/parse/src/syn_engine/mod.rs:40", "fall/parse/src/syn_engine/parser.rs:102", "lang/fall/syntax/src/fall.rs:61", "fall/parse/src/lex_engine.rs:30"]}
{"id": "C77", "title": "Relexing the shipped languages", "statement": "Relexing after an edit gives the tokens of the new text: for S-expressions, arithmetic, BNF and JSON always, for Fall and the language with raw strings of the tests if there is no double quote in the texts, and for Rust if there is neither a double quote nor a quote. These conditions are needed.", "quantifier": "every ASCII text, every edit, every lexer that takes the longest token of the rules of the language", "why_tests_cant": "Relexing assumes that a token is determined by one byte after it. Whether the lexical rules fulfil this is a question about all pairs of texts.", "anchors": ["fall/parse/src/lex_engine.rs:30", "fall/parse/src/lib.rs:53", "fall/parse/src/lib.rs:65", "lang/fall/syntax/src/fall.rs:61", "lang/rust/syntax/src/rust.rs:210", "lang/json/src/json.rs:25", "lang/bnf/src/bnf.rs:16"]}
{"id": "C78", "title": "Reparsing the other shipped languages", "statement": "Reparsing after an edit gives exactly what parsing the new text gives, with the same panics, for S-expressions, arithmetic, BNF and JSON, and for the language with raw strings of the tests if there is no double quote in the texts; so after any sequence of edits the file is that of a parse of its text. For Rust this does not hold, even where relexing is right.", "quantifier": "every ASCII text, every edit, every sequence of edits, every budget, every lexer that takes the longest token of the rules of the language", "why_tests_cant": "Whether reuse changes the result depends on pairs of texts and on the context in which a fragment was parsed; tests reparse a few files. The wrong result for Rust needs a fragment moved to another context.", "anchors": ["fall/parse/src/lib.rs:208", "fall/parse/src/syn_engine/mod.rs:40", "fall/parse/src/syn_engine/parser.rs:102", "lang/rust/syntax/src/rust.fall:120", "lang/json/src/json.rs:25", "lang/bnf/src/bnf.rs:16"]}
{"id": "C79", "title": "When the parser generator succeeds", "statement": "The generator makes a parser from a grammar exactly if every rule, and every expression that a rule is made of, has a meaning in the grammar as written: references resolve, calls have enough arguments, operators have their shape. A grammar for which the analysis reports no errors is generated if it also meets conditions that the analysis does not check: rules have bodies, the types named by attributes exist, replacing rules make nodes, commits are written `<commit>` and are parts of sequences, texts of contextual tokens are quoted, alternatives of operator expressions are operators, and operators are no commits.", "quantifier": "for all grammar files, and for all texts of grammars that the parser of grammars accepts, with all interleavings of the collection of diagnostics", "why_tests_cant": "success depends on the resolution of every name in the file and on combinations of attributes of different rules; tests only generate parsers for grammars that work", "anchors": ["fall/gen/src/generate/codegen.rs:56", "fall/gen/src/generate/codegen.rs:151", "fall/gen/src/generate/codegen.rs:199", "lang/fall/src/analysis/diagnostics.rs:1"]}
{"id": "C80", "title": "The generated lexer and typed tree are as written", "statement": "From a grammar the generator makes everything exactly if the rules have a meaning (C79), there is a tokenizer, the strings of its tokens and of the verbatim part are complete, the names in the ast block have a camel case, and its methods have names and select something, but not many tokens. What is made is what is written: a lexer rule for each token that is not contextual, in order, with its type, its expression (raw strings as they are, others escaped) and its function; the verbatim text without surrounding white space; a struct for each node with its methods; an enumeration for each class; a trait for each trait, implemented for the nodes that name it.", "quantifier": "for all grammar files, and for all texts of grammars that the parser of grammars accepts; for all functions that escape strings", "why_tests_cant": "whether something is generated depends on combinations of names, attributes and methods in the whole grammar; the tests generate code for a few grammars that work", "anchors": ["fall/gen/src/generate/codegen.rs:51", "fall/gen/src/generate/codegen.rs:64", "fall/gen/src/generate/codegen.rs:80", "fall/gen/src/generate/codegen.rs:349", "fall/gen/src/util.rs:1"]}
{"id": "C81", "title": "The meaning of the generated module", "statement": "In the generated module, the constant of each type is the number that the generated parser uses for it, and its name and its being skipped are those of the token; lexer rules are for the types of their tokens; the wrapper type of a node or a class accepts exactly the nodes that belong to it; each generated method gives at each node of each tree exactly what the method of the grammar selects, and panics exactly if a required child is missing. All names of the module are defined exactly once if and only if the names of the grammar are.", "quantifier": "for all grammars whose names are usual ones (small letters, digits, underscores between words), all trees and all nodes of them", "why_tests_cant": "generated code refers to other generated code only by names made from the grammar; whether they meet depends on all names of a grammar, and tests compile a few grammars only", "anchors": ["fall/gen/src/generate/mod.rs:15", "fall/gen/src/generate/codegen.rs:349", "fall/tree/src/ast.rs:27", "fall/tree/src/search.rs:4"]}
{"id": "C82", "title": "Typing a space after `let`", "statement": "A semicolon is offered exactly if the leaf left of the space is the keyword `let`, it is in a let statement, and the innermost such statement has neither `=` nor `;` and no `;` follows it directly. Nothing but a semicolon is ever inserted. There is a panic exactly at the beginning of the file and beyond its end.", "quantifier": "for all files with a consistent tree, all offsets", "why_tests_cant": "the tree around the keyword depends on recovery from errors in the unfinished statement and on everything around it; there are four tests", "anchors": ["lang/rust/src/editor/mod.rs:31"]}
{"id": "C83", "title": "Expanding `.dd`", "statement": "The expression statement left of the caret, without its last three bytes, is replaced by a statement that prints it with its value; everything before the statement and after the caret is unchanged. Without such a statement nothing happens, and there is a panic exactly if the statement is shorter than three bytes, or the caret is at one of the first two places or beyond the end.", "quantifier": "for all files with a consistent tree, all offsets", "why_tests_cant": "ranges of statements and offsets of carets are combined with subtraction, and there are no tests", "anchors": ["lang/rust/src/editor/mod.rs:46"]}
{"id": "C84", "title": "Breadcrumbs", "statement": "The breadcrumbs are the texts of exactly the functions, structs, enums and traits with names, and the implementations of something, that the leaf left of the place before the caret is in, from the outside to the inside. There is a panic exactly at the beginning of the file and beyond its end.", "quantifier": "for all files with a consistent tree, all offsets", "why_tests_cant": "nesting is unbounded; there are no tests", "anchors": ["lang/rust/src/editor/mod.rs:65"]}
{"id": "C85", "title": "Symbols of a Rust file", "statement": "The list of symbols, from which the structure of a file and the index for searching are made, has exactly one entry for each function, struct, enum, type, trait and module with a name, with its name and its node; what is inside a declaration comes before it, otherwise declarations come in the order of the text.", "quantifier": "for all files with a consistent tree; for all functions that process symbols", "why_tests_cant": "declarations are nested in each other without a bound, and the visitor is applied to each node of the tree; there are no tests of nesting", "anchors": ["lang/rust/src/editor/file_symbols.rs:5", "lang/rust/src/editor/mod.rs:128"]}
{"id": "C86", "title": "Context actions for Rust", "statement": "The action for braces is offered exactly if there is a use declaration at the caret with a path that has a last segment, and without a list; it puts that segment in braces and changes nothing else. The action for an implementation is offered exactly if there is a struct or an enum with a name; it puts after it an empty implementation, with the parameters of the declaration and their names as arguments. An action is offered exactly if applying it gives an edit, and the edit can be applied; names other than those of the actions give nothing.", "quantifier": "for all files with a consistent tree, all ranges, all names of actions; the parameters of types are to have names, which they have in every parsed file", "why_tests_cant": "the actions are run twice, with and without making the edit, by different branches; tests apply each action to two or three files", "anchors": ["lang/rust/src/editor/actions.rs:12", "lang/rust/src/editor/actions.rs:39", "lang/rust/src/editor/actions.rs:45", "lang/rust/src/editor/mod.rs:140", "lang/rust/src/editor/mod.rs:155"]}
{"id": "C87", "title": "The text of a tree determines the tree", "statement": "The text of a tree with white space, shown by the editor and compared by all tests of parsers, is the same for two files exactly if they have the same tree: types, children and texts of leaves; then the files have the same text. Without white space it is the same exactly if the trees are the same after nodes like white space are taken away. It is written without a panic for every parsed Fall or Rust file, and for these equal texts of trees mean equal files. Comparing files in tests passes exactly if the trees are the same, and comparing with an expected text exactly if that is the text up to white space around it.", "quantifier": "for all files with a consistent tree, all languages whose types have different names, and all ways of writing strings that are injective and on one line; all texts for Fall and Rust", "why_tests_cant": "tests compare trees by this text, so if two trees had the same text no test would notice", "anchors": ["fall/tree/src/util.rs:4", "fall/tree/src/util.rs:29", "fall/tree/src/test_util.rs:47", "fall/tree/src/test_util.rs:59", "fall/tree/src/test_util.rs:132", "lang/fall/syntax/src/fall.rs:119", "lang/rust/syntax/src/rust.rs:332"]}
{"id": "C88", "title": "Carets in the texts of tests", "statement": "The caret that is taken out of the text of a test is the first one, and the range is that between the first and the next; the rest of the text is unchanged. There is a panic exactly if a caret is missing. A caret put into a text at any place is found there, if its first byte is not in the text before it.", "quantifier": "for all texts, all carets", "why_tests_cant": "these are the functions that make the input of tests; they have no tests themselves", "anchors": ["fall/tree/src/test_util.rs:9", "fall/tree/src/test_util.rs:27"]}
{"id": "C89", "title": "Tests written in a grammar", "statement": "If `test r` is in a grammar just where tests are, exactly these are found, in their order. The check of the trees passes exactly if the parts of expected and actual text between separators are the same up to white space around them, for as many as both have; for a complete file, if there are as many tests and all are the same with their trees. After the file is rewritten the check passes. The check of a single file passes exactly if there is an expected tree and it is the same up to white space.", "quantifier": "for all grammars, all parsers and all contents of files", "why_tests_cant": "a check that passes too easily is not noticed by running it", "anchors": ["fall/tree/src/test_util.rs:82", "fall/tree/src/test_util.rs:105", "fall/tree/src/test_util.rs:119", "fall/tree/src/test_util.rs:149"]}
{"id": "C90", "title": "Handing the tests of a grammar to the generated parser", "statement": "The tests that the generated parser gets, after they are joined and cut again, are those of the grammar exactly if there is at least one, none has the separator in it, and none but the last ends with the separator up to its line end.", "quantifier": "for all lists of tests", "why_tests_cant": "joining and cutting are done by different programs; there are no tests", "anchors": ["fall/gen/src/lib.rs:115", "fall/gen/src/lib.rs:144"]}
{"id": "C91", "title": "The plugin keeps the files of the documents", "statement": "The record made from a change of a document is about the range of UTF-16 units that was replaced, taken after the change; it is the range of bytes exactly if there are ASCII characters only up to its end, and then the edit made from it turns the old bytes into the new ones. With a backend that is right about documents that meet a condition, whatever is opened, changed, closed, activated and asked for in the editor, no handler panics, each file that is kept is that of the document as it is, and so is each file that is handed out. The backend for Fall is right about ASCII documents without double quotes: a kept file is what parsing the document gives.", "quantifier": "for all sequences of events and all documents; for Fall all ASCII documents without double quotes", "why_tests_cant": "the state of the plugin depends on the whole history of events, and offsets agree on ASCII tests", "anchors": ["code/common.ts:24", "code/common.ts:159", "code/common.ts:178", "code/common.ts:205", "code/generic_backend/src/lib.rs:63", "lang/fall/src/editor/mod.rs:21", "code/generic_backend/src/lib.rs:194"]}
{"id": "C92", "title": "Edits of features arrive in the editor", "statement": "For a file of ASCII text, what a feature asks to delete, replace and insert is what the editor does with the document: the records exist, are in order, do not overlap and are inside the document, the positions made of them are those of the offsets, and the changed document is the rendering of the tree with the requests, also if its end is deleted or text of other characters comes in. So a grammar that is formatted in the editor is formatted as it is meant to be.", "quantifier": "for all files with consistent trees and ASCII text, all structural edits; all ASCII grammars for formatting", "why_tests_cant": "edits are made of offsets, positions and offsets again by three programs; tests of features stop at the first", "anchors": ["code/common.ts:119", "code/common.ts:352", "code/common.ts:363", "fall/tree/src/edit.rs:50", "code/generic_backend/src/lib.rs:202"]}
{"id": "C93", "title": "The JSON parser reads JSON", "statement": "A parsed file has no ERROR node if and only if its tokens are those of a JSON document: an object or an array, whose fields are strings with a colon and a value, with commas between fields and elements and none behind the last one, and nothing behind the document. The tree of a document has a node for each primitive value, object, field and array and no others, and tokens can be read in one way only. A text that begins with a bracket is parsed, with errors or without; on any other text the parser panics.", "quantifier": "for all texts, all lexers that make progress, and all values, nested in any way", "why_tests_cant": "values are nested in any way and the grammar looks for closing brackets before it parses what is in them; tests show some values", "anchors": ["lang/json/src/json.fall:18", "lang/json/src/json.fall:28", "lang/json/src/json.fall:45", "lang/json/src/json.rs:1", "fall/parse/src/syn_engine/parser.rs:1"]}
{"id": "C94", "title": "In a file without errors everything the grammar requires is there", "statement": "If a parsed file has no ERROR node, all of its significant tokens are a sentence of the grammar with commits and recovery removed, and its tree shows that reading. So in Fall files without errors rules have names and bodies, definitions of nodes, classes and traits have names, and no query, no diagnostics, no highlighting and no going to a definition panics; in Rust files without errors each declaration has a name and is in the outline.", "quantifier": "for all grammars in which moved nodes have a node to go to, all texts, and all places in the files", "why_tests_cant": "which parts may be missing depends on every place where the parser goes on after an error, and those are reached by texts that nobody wrote as a test", "anchors": ["fall/parse/src/syn_engine/expr.rs:165", "fall/parse/src/syn_engine/parser.rs:95", "lang/fall/syntax/src/fall.fall:91", "lang/fall/src/analysis/query/resolve_pratt_variant.rs:31", "lang/rust/syntax/src/rust.fall:154"]}
{"id": "C95", "title": "Texts are cut between characters", "statement": "If the tokens of the lexer end between characters, all nodes of a parsed file begin and end between characters, so that taking the text of a node never panics; and structural edits whose texts are strings copy pieces between such places only and give a string again. Replacing a range is such an edit if it begins and ends between characters.", "quantifier": "for all strings with characters of one to four bytes, all grammars, all trees and all edits", "why_tests_cant": "cutting a string inside of a character panics, and only for texts with characters that the tests do not have, at nodes whose ends come out of whitespace binding and error recovery", "anchors": ["fall/text/src/text.rs:21", "fall/tree/src/node/imp.rs:28", "fall/tree/src/edit.rs:50", "fall/parse/src/lex_engine.rs:14"]}
{"id": "C96", "title": "Edits of the features are edits of strings", "statement": "The edits that the context actions of Fall and of Rust and the formatter of Fall give copy pieces between characters only, insert strings, and make a string of the file; breadcrumbs are strings and extended selections begin and end between characters. Expanding a statement that is to be printed does so if the place three bytes before the end of the statement is between characters.", "quantifier": "for all files of strings with characters of one to four bytes, all selections and all actions", "why_tests_cant": "a text with a character of several bytes at the wrong place makes the editor panic, and the tests of the actions have ASCII texts only", "anchors": ["lang/fall/src/editor/actions/extract_rule.rs:22", "lang/fall/src/editor/formatter.rs:30", "lang/rust/src/editor/actions.rs:12", "lang/rust/src/editor/mod.rs:46", "fall/editor/src/actions.rs:80", "fall/editor/src/extend_selection.rs:5"]}
{"id": "C97", "title": "The BNF parser accepts exactly the grammars", "statement": "A file parsed by the BNF language has no ERROR, neither a node nor a token, if and only if its significant tokens are those of a list of productions, each a name, an arrow and one or more alternatives of one or more symbols; the file then has the nodes of these productions, and there is only one way to read the tokens.", "quantifier": "for all lexers that make progress and all texts that are parsed", "why_tests_cant": "the boundary between productions is found by looking ahead for an arrow, and the tests have one text; a construct that is skipped or accepted by mistake shows up on other texts only", "anchors": ["lang/bnf/src/bnf.fall:9", "lang/bnf/src/bnf.rs:24", "fall/parse/src/lib.rs:247"]}
{"id": "C98", "title": "The typed nodes of BNF show productions, alternatives and symbols", "statement": "In every parsed BNF file the accessors of the typed nodes find what they are named after: a production has a head and shows its alternatives, and an alternative shows its symbols.", "quantifier": "for all lexers that follow the lexical rules and all texts that are parsed", "why_tests_cant": "the accessors are generated and compile whatever the grammar is, and a list that is always empty is not an error", "anchors": ["lang/bnf/src/bnf.fall:43", "lang/bnf/src/bnf.rs:121", "lang/bnf/src/bnf.rs:124", "lang/bnf/src/bnf.rs:152", "fall/tree/src/ast.rs:27"]}
{"id": "C99", "title": "The parser for symbolic expressions accepts exactly those", "statement": "A file parsed by the language of symbolic expressions has no ERROR if and only if its significant tokens are atoms and lists in parentheses that are all closed; the file then has a node for each list, and there is only one way to read the tokens.", "quantifier": "for all lexers that make progress and all texts that are parsed", "why_tests_cant": "lists may be nested to any depth", "anchors": ["fall/test/src/sexp.rs:24", "fall/parse/src/lib.rs:247"]}
{"id": "C100", "title": "The parser for arithmetic accepts exactly the expressions", "statement": "A file parsed by the language of arithmetic has no ERROR if and only if its significant tokens are those of an expression: every operator has its operands and every parenthesis is closed. The file then has the tree of the one expression with these tokens that keeps to the usual rules of precedence and association.", "quantifier": "for all lexers that make progress and all texts that are parsed", "why_tests_cant": "expressions nest to any depth and operators combine in any order; the operator loop accepts a missing operand by adding an error, and no test shows that this happens each time", "anchors": ["fall/test/src/arith.rs:38", "fall/parse/src/syn_engine/pratt.rs:36", "fall/parse/src/lib.rs:247"]}
{"id": "C101", "title": "Searching a project finds the declarations of its Rust files where they are", "statement": "The search returns declarations in the files of the project that end in .rs and are texts, each with its type, its name, its range and the lines and columns of the ends of the range, and with a name that matches the query. Of the declarations of a file whose names differ in case only, the first is found, and no other. Unless the result was cut off, all matching types are returned, and everything that matches if the query contains '#' or no type matches. Making the index and searching never panic.", "quantifier": "for all roots, states of the file system and sequences of events after which the last look at each path saw what is there now, all texts, all queries, and all orders in which the index lists its files", "why_tests_cant": "It runs through the lexer, the parser, the visitor for declarations, the line index, the sorted index and the watcher; an example is one project, one query and one order of events.", "anchors": ["lang/rust/src/editor/symbol_index.rs:22", "lang/rust/src/editor/symbol_index.rs:92", "lang/rust/src/editor/file_symbols.rs:5", "indxr/src/lib.rs:110"]}
{"id": "C102", "title": "An argument of a rule means in the rule what it means at the call", "statement": "Where a rule mentions its parameter, exactly that is read that would be read if the argument of the call stood there, with the meaning that it has at the place of the call; this also holds for parameters that are passed on. What an expression reads depends only on the parameters that it reaches.", "quantifier": "for all grammars, all calls, all states of the parser, all token sequences and all budgets", "why_tests_cant": "Whether an argument means the same depends on all calls below it, in particular on recursive ones; tests use the shipped grammars, in which it holds.", "anchors": ["fall/parse/src/syn_engine/expr.rs:319", "fall/parse/src/syn_engine/expr.rs:337"]}
{"id": "C103", "title": "Which texts are symbolic expressions", "statement": "A text of ASCII characters is parsed as symbolic expressions without errors if and only if it consists of blanks, parentheses, letters, digits and underscores, nowhere more parentheses have been closed than opened, and at the end as many. Files without errors can be joined.", "quantifier": "for all ASCII texts, and all lexers that apply the rules of the language", "why_tests_cant": "The claim speaks of all texts, however deep the parentheses are nested and however the text is divided into tokens; tests parse a few.", "anchors": ["fall/test/src/sexp.rs:12", "fall/parse/src/lex_engine.rs:20", "fall/parse/src/lib.rs:190"]}
{"id": "C104", "title": "Which texts are arithmetic expressions", "statement": "A text of ASCII characters that is parsed as arithmetic has no errors if and only if it is a number, a sum, a difference, a product, a quotient, a negation, a factorial or an expression in parentheses of such texts, or one of them with blanks around it; all these texts are parsed.", "quantifier": "for all ASCII texts, and all lexers that apply the rules of the language", "why_tests_cant": "The claim speaks of all texts, however they are divided into tokens; tests parse a few.", "anchors": ["fall/test/src/arith.rs:22", "fall/parse/src/lex_engine.rs:20", "fall/parse/src/lib.rs:190"]}
{"id": "C105", "title": "Which texts are JSON documents", "statement": "A text of ASCII characters that is parsed as JSON has no errors if and only if it is an object or an array with blanks around it, written with names in quotes, commas between fields and elements and none behind the last one, and values that are null, true, false, strings, digits, objects or arrays; all these texts are parsed in a number of steps linear in their length.", "quantifier": "for all ASCII texts, and all lexers that apply the rules of the language", "why_tests_cant": "The claim speaks of all texts, however they are divided into tokens; tests parse a few.", "anchors": ["lang/json/src/json.fall:1", "fall/parse/src/lex_engine.rs:20", "fall/parse/src/lib.rs:190"]}
{"id": "C106", "title": "White space and comments between tokens do not change the tree", "statement": "If two texts have the same tokens with the same texts but for whitespace and comments, then both are parsed or none is, and their trees have the same nodes and tokens in the same order and nesting but for whitespace and comments; in particular one has an error exactly if the other has. The strings the grammar asks for must lie within single tokens.", "quantifier": "for all languages whose strings lie within single tokens, in particular the Fall language, and all pairs of texts", "why_tests_cant": "There are unboundedly many ways to lay out a text; tests compare trees with fixtures of single layouts.", "anchors": ["fall/parse/src/syn_engine/parser.rs:40", "fall/parse/src/syn_engine/parser.rs:177", "fall/parse/src/lib.rs:190"]}
