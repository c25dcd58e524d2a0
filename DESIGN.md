# A formal model of fall in Lean 4

`/repo` holds matklad/fall: a parser generator with an interpreted, incremental
parser, a lossless syntax tree library, and editor support built on top of it.
This directory holds a Lean 4 model of that code and proofs of the properties
listed in `properties.jsonl`. `MANIFEST.json` maps property ids to theorem names.

## How the model is laid out

| Lean file (under `lean/Verif/`) | Models | Contents |
| --- | --- | --- |
| `Model/Text.lean` | `fall/text/src` | ranges, views, edit scripts, edit builder, random edit scaling, trim |
| `Model/VsEdit.lean` | `code/generic_backend/src/lib.rs` | conversion to/from editor edit records |
| `Model/Lex.lean` | `fall/parse/src/lex_engine.rs` | `lex`, `relex` |
| `Model/Tree.lean` | `fall/tree/src/node`, `search.rs`, `edit.rs`, `visitor.rs` | tree builder, flat node table, search, structural edits |
| `Model/Syn.lean` | `fall/parse/src/syn_engine`, `lib.rs` | the grammar interpreter, Pratt parser, reparse cache |
| `Model/Incremental.lean` | `fall/parse/src/syn_engine/mod.rs`, `fall/parse/src/lib.rs` | salvaging of old fragments, `reparse` |
| `Model/Grammars.lean`, `Model/RustGrammar.lean` | `fall/test/src/*.rs`, `lang/*/…/{json,fall,rust}.rs` | the grammars of the shipped languages, written by `tools/grammars.py` from the text of the generated parsers |
| `Model/Convert.lean` | `fall/parse/src/syn_engine/convert.rs` | event reshuffling and conversion to builder calls |
| `Model/Lines.lean`, `Model/Symbols.lean`, `Model/SymbolIndex.lean`, `Model/Indexer.lean` | `lang/rust/src/editor`, `indxr` | line index, symbol search, file index |
| `Model/Editor.lean` | `fall/editor/src/{extend_selection,actions}.rs`, `lang/fall/src/editor/actions/swap_alternatives.rs` | selection, swapping |
| `Model/Db.lean` | `lang/fall/src/analysis/db.rs`, `diagnostics.rs` | the query database, shared by threads |
| `Model/Analysis.lean` | `lang/fall/src/analysis`, `lang/fall/syntax/src/{fall,ast_ext}.rs` | the queries of the analysis of grammars, with the accessors of the typed tree they use |
| `Model/LexRules.lean` | the lexical rules in `fall/test/src/*.rs`, `lang/*/…/{json,bnf,fall,rust}.rs` | regular expressions and the functions `parse_raw_string`, `parse_block_comment` |
| `Model/Codegen.lean` | `fall/gen/src/generate/codegen.rs` 16-62, 121-347 | the parser generator: node types and rules from the tree of a grammar |
| `Model/FallEditor.lean` | `lang/fall/src/editor`, `fall/editor/src/hl.rs` | editor features for grammars: references, tests, structure, highlighting, extracting a rule, formatting |
| `Model/Generate.lean` | `fall/gen/src/generate` | lexical rules, typed tree and names in the generated file |
| `Model/RustEditor.lean` | `lang/rust/src/editor` | editor features for Rust |
| `Model/Dump.lean`, `Model/TestTools.lean` | `fall/tree/src/{util,test_util}.rs`, `fall/gen/src/lib.rs` 63-165 | texts of trees, helpers of tests |
| `Model/Plugin.lean` | `code/common.ts` 15-47, 49, 159-214, 352-366, `code/generic_backend/src/lib.rs` 41-49, 63-80 | files kept by the plugin for VS Code, positions and offsets |
| `Spec/*.lean` | - | small definitions used to state properties, independent of the model |
| `Lemmas/*.lean` | - | helper lemmas |
| `Props/*.lean` | - | the property theorems, each followed by an `example` with a concrete instance of its hypotheses |

Every definition in `Model/` has a comment with the file and lines it models.

## Conventions and simplifications common to the whole model

* A panic (`assert!`, `unwrap` on `None`, `unreachable!`, index out of bounds,
  unsigned underflow) is the value `none` (or an explicit `panic` outcome where
  the function itself returns an option). Theorems that say "does not panic"
  conclude that the outcome is not that value.
* `TextUnit` and all `u32`/`u16`/`usize` counters are unbounded naturals: texts
  are assumed to be shorter than 4 GiB and a single token event to stand for
  fewer than 65536 raw tokens. Subtractions that would underflow are modelled
  as panics, or shown not to occur.
* Text is a list of bytes (a type parameter where the content does not matter).
  The panic of `str` slicing off a character boundary is not part of the model, except in
  `trim`, which is modelled on characters with their UTF-8 lengths; C95 shows where
  texts are cut between characters.
* Unbounded loops and recursion of the grammar interpreter take a fuel argument;
  running out of fuel is a separate outcome (`timeout`), never a result. C32
  proves that enough fuel exists for well-formed grammars; other theorems hold
  for every amount of fuel.
* External code is a parameter: the lexer (`m_lexer`; where its rules matter, any lexer whose
  tokens are errors or found by a rule, `Spec.LexesBy`), the whitespace binder, hash maps (finite maps with `insert`/`get`),
  the `fst` crate, file system notifications. Hypotheses on them appear in the
  theorems. Classes of characters outside of ASCII in lexical rules are approximated by
  sets of bytes (see `Model/LexRules.lean`).

## Trusted base

* The Lean 4.33.0 kernel, and the axioms `propext`, `Classical.choice`,
  `Quot.sound` (at most; `Props/Axioms.lean` looks at every property theorem and
  fails the build if one depends on anything else). No other axioms, no `sorry`, no `native_decide`, no `bv_decide`.
* The reading of the Rust sources in the model files: the model was written by
  hand from the text of `/repo`; nothing checks it mechanically against the Rust
  code. Line references are in the comments of the definitions. The grammars of the shipped languages were
  copied by a script (`tools/grammars.py`), which is trusted in the same way. The models of the lexer, the parser, the
  analysis and the generator together, evaluated on the texts of the seven shipped grammars, give exactly the copied
  rules; for `sexp.fall` the kernel checks this (`Props/Codegen.lean`), the others were evaluated once.
* The parameters named above.

## Not modelled

Serialization, `Display`/`Debug` formatting, metrics timing, logging, the Neon/
VS Code glue (apart from edit conversion and the files kept for the documents), code generation templates (tera),
the regex engine, proptest, threads of the file watcher (only its event
handling), memory and stack limits.

## Plan per property

| Id | What is modelled and how it is proved |
| --- | --- |
| C01 | `Text` = buffer + range, `slice` with its two asserts. Direct list reasoning (`drop`/`take`). |
| C02 | `TextRange` functions; compared with membership of offsets in the interval. Linear arithmetic. |
| C03 | `partial_cmp`. Order laws for non-empty ranges (`_partial`), and the negation for empty ranges by witness. |
| C04 | `TextEditBuilder` as a state machine with panic; induction over the request list against a recursive splice specification; characterisation of panics. |
| C05 | `TextEdit::apply`; induction over the script. |
| C06 | `to_vs_edits`; VS edits applied by a simultaneous-replacement specification; induction over the script; witness for the lost trailing deletion. |
| C07 | `from_vs_edits` through the builder; corollary of C04. |
| C08 | `scale` etc. with the 64 bit arithmetic shown not to overflow; nonlinear `Nat` division lemmas. |
| C09 | `trim` on character lists with UTF-8 lengths. |
| C10 | `lex` with well-founded loop on the remaining length; induction. |
| C11 | `relex` as written (three nested loops). Invariant: the new tokens are a prefix of the fresh lexing, the old cursor is a boundary of the old lexing. Hypotheses on the lexer: progress and one byte lookahead. |
| C12 | Concrete lexer with longer lookahead; evaluation. |
| C13 | Ghost accounting of reused length in the same invariant. |
| C14-C16 | Builder state machine over the flat node table; invariant by induction over the tree of calls. |
| C17-C21 | Functions over the flat node table, recursion bounded by table size; consistency predicate of C14 as hypothesis; well-founded induction on node ids. |
| C22, C23 | `text_edit_for_node` through the builder of C04; specification is a recursive rendering of the tree. |
| C24-C27 | Grammar interpreter with fuel and panic outcome. One invariant, proved for the open-recursive step of each expression kind assuming it for recursive calls, then induction on fuel. Event groups are described by an inductive type of items with an encoding into raw events with forward-parent offsets. |
| C28 | `reshuffle_events` with its hole stack; induction over items, invariant on the stack. |
| C29, C30 | `Convertor::{go,fill}` emitting builder calls; induction over the nested structure. |
| C31 | Composition of C10, C26-C29, C14-C16. |
| C32 | Static analyses as inductive definitions (`Spec/Static`): which expressions can match nothing, which are run at the position where another one begins, with which values of parameters. Induction on remaining tokens and the length of chains of such runs (`Lemmas/Terminates`). The seven shipped grammars are transcribed by `tools/grammars.py` (`Model/Grammars`, `Model/RustGrammar`); a checker, proved sound (`Lemmas/StaticCheck`), is evaluated on them by the kernel. |
| C33 | Static analyses (`Spec/Static`): which expressions may be run, with which values of parameters and whether in lookahead (`Reached`), which may fail, which may begin with something other than a node; conditions on what is reached (`Safe`, `Linked`). An invariant of the state of the interpreter, for each kind of expression, then induction on the budget (`Lemmas/NoPanic`); together with C28, C32 and C31 a whole parse completes (`Lemmas/Total`). Each condition is shown to be needed. |
| C34 | The grammars transcribed from the generated files; a checker for `Safe` and `Linked`, proved sound (`Lemmas/SafeCheck`), is evaluated by the kernel; theorem for every text and every lexer that makes progress (and, for Fall and Rust, whose whitespace does not begin with a visible character). The binder of the Rust parser is modelled (`Model/Languages`). |
| C35 | Big-step relation for PEGs; equivalence with the interpreter on the fragment. |
| C36-C39 | Laws for each construct in terms of complete runs of its parts (`Spec.Runs`, independent of the budget), from which the claims follow. For C38 also: a run in a layer is the same when tokens and text after the layer are cut off, by a simulation between two environments (`Lemmas/Sim`). |
| C40 | Operator trees with a definition of conventional grouping (`Spec/Pratt`); every sequence of operands and operators has exactly one grouped tree (`Lemmas/Grouping`); the Pratt parser reads single-token operators as that tree, by induction over its left spine (`Lemmas/Pratt`). Operands are any rules that give a node; missing right operands are included. For the arithmetic example also against the textbook stratified grammar (`Spec/Arith`), for whole parses. |
| C41 | `bump_by_text` on token lists with offsets. |
| C42 | Simulation between runs with and without a sound cache (`Lemmas/Sim`, `Lemmas/Cache`). Cached rules must not be run in lookahead or in layers (`Spec.Confined`). Equal to a run with an empty cache; equal up to panics to a run without cache. |
| C43 | `salvage_segments`; induction over events and edit operations. |
| C44 | Composition of relexing, salvaging and parsing for grammars without cached rules (`_partial`), also for whole editing sessions; for cached rules if the salvaged cache is sound; negation with a concrete grammar, text and edit. |
| C45 | `LineIndex` (`Model/Lines.lean`) over characters with their UTF-8 lengths; the binary search of the crate `ordslice` is a parameter with its contract. Against the specification `Spec.IsAt`, in terms of the text only; order preservation and partition into lines. |
| C46 | `FstSubSeq`: the automaton run over bytes versus `List.Sublist`; hints: every search that stops early where the hints allow it (`Spec.Searched`). |
| C47 | `Model/Indexer.lean`: initial walk and event handler as a state machine over a map from paths, each event with the file system at the time it is handled; the index equals what the last look at the path saw. Counterexamples for directories. The order of a directory walk, threads and locks are not modelled. |
| C48 | `Model/Editor.lean`: `extend_selection` over the flat tree. A non-empty selection becomes the smallest node containing more; by induction on the length, repeated extension ends with the file. A caret becomes the leaf next to it or, in indentation, the line. |
| C49 | `Model/Db.lean`: query bodies are programs that report and ask; threads are stacks of nested calls that interleave at each critical section. Invariant: cached values equal evaluation without a cache (`Spec.Eval`), and the reports of each cached query were appended once. Also: all schedules give the same reports up to order, every schedule ends if the queries are not cyclic, and no thread gets stuck. |
| C50 | `Model/Analysis.lean`: all queries of the analysis as programs over the flat tree. `Spec.Means` says what a name means inside a rule; proved for evaluation without a cache and, with C49, for every state of the cache. |
| C51 | `Model/Editor.lean`: the actions `Swap` and `Swap alternatives` with their choice of nodes, through `FileEdit`. Which nodes are exchanged, that the new text is the old one with the two exchanged (`Spec.Exchange`), and that a second swap restores it. |
| C52 | Covered with the tree functions of C17-C21. |
| C53 | The same invariant as C26: the events of a successful run encode items that derive from the expression (`Spec.Derives`). |
| C54 | `parse_raw_string` of three languages: which texts are raw strings (`Spec.RawString`); panics characterised. |
| C55 | `parse_block_comment`: the grammar of nested comments (`Spec.Comment`); the loop keeps a number of open comments. |
| C57 | `Model/Symbols.lean`: stable sort, deduplication, index, query with both passes and the limit. Lower-casing is a parameter; the `fst` crate is a sorted list of entries searched with the automaton; which nodes are symbols is in C85 and C101. |
| C58 | The queries are well-founded (rules, tokens, contexts < references < calls < unused rules); each body is shown to end, so C49's termination applies. |
| C59 | Per query: what it reports, from its loop. Whole file: the queries that are needed are characterised (`Asked`), what each of them reports is a problem (`Spec.Problem`) and each problem is reported by the query about it. |
| C60 | `Spec.Shaped` says what the accessors need. Without it nothing is known; with it each query is followed: it is safe, or its panic is characterised (`Spec.PanicsAt`). Parsed files are `Shaped` by C64 and because tokens of strings match their lexical rule. |
| C61-C63 | `Spec.CallMeans`, `Spec.OperatorMeans`, `Spec.TraitsOf`, `Spec.MethodMeans` describe answers and reports on the tree; the queries satisfy them, and they determine the answer. |
| C64 | Static analyses of grammars (`Spec.Lacks`, `Spec.Bars`, `Spec.Outside`) with the readings of C53: by induction over derivations, every node of a type has a child of given types, has no child of given types, or is inside of a node of a given type. A rule that replaces its first node may have any type that a `replaces` of its body gives (`Spec.Replaces`). Instances for the Fall, BNF and Rust grammars are checked by evaluation of sets given as bits; for every lexer that applies the lexical rules (`Spec.LexesBy`). |
| C65 | `Model/Codegen.lean`. What a grammar says is a relation on its tree (`Spec.Says`), whose references are nodes; the generator keeps a list of the nodes its expressions were made for. `Says` is functional. Bodies of rules are assumed to be blocks, which C64 shows for every parsed text (`C65_parsed`, `C65_text`). |
| C66 | The parser commutes with renaming of rules (`Lemmas/SynRename.lean`), so the generated rules and the grammar as written (`Spec.Written`) give the same events up to keys of memorised results, the same tree, and readings in the sense of C53. Parsing without a previous result. |
| C67 | From the lists the generator counts in; all types that rules mention come from `Says`. |
| C68 | `Model/FallEditor.lean`. Uses and what they lead to are relations on the tree (`Spec.IsReference`, `Spec.LeadsTo`), by C50, C61 and C63; the search around the caret finds the innermost node at which the program answers something. |
| C69 | The caret is at the right one of two leaves. Tests are children of the root of parsed files: `C64_without` with all types but that of the root. |
| C70 | The formatted text is a relation on the tree (`Spec.Formatted`), which has exactly one result; the edit of the formatter renders it, by C22. That whitespace of parsed grammars is blank is by the lexical rules. |
| C71 | `Spec.Selected` is the innermost expression around the selection and `Spec.Piece` the part of it that is extracted; the edit (a replacement in a leaf or of nodes, and an insertion) renders `extractedText`, by C22 and C23. That the expression is in a rule is by the promises of the grammar (C64). |
| C72 | The walk is `C21_subtree`; that the declarations of parsed files are children of the root is `C64_fall_declarations`. |
| C73 | `Spec.Coloured` tells which spans a node makes, by what the analysis says of it (C57 to C59); panics by C60. |
| C74 | From C51 and C71: each action is either not offered and does nothing or offered and gives an edit. |
| C75 | `Spec.ClosesAt` counts brackets. By induction on the number of tokens, the rule has a run that ends there from any state; runs are deterministic. For the brackets around a layer by `runs_and` and `runs_layer`. |
| C76 | The parser runs with and without the cache in lockstep (`Lemmas/Sim`, `Lemmas/Lockstep`); a hit is replaced by the run that made the fragment, moved to its new place. The fragments of Fall are rules that end with a closing brace and look at no token after it, which is checked on the grammar (`Lemmas/ReparseCert`); that a piece ending with a brace has the same tokens everywhere is proved from the lexical rules (`Lemmas/FallTokens`). Assumed about `m_lexer`: it takes the longest token, and the first rule if there are more (`Spec.LexesAscii`). |
| C77 | The lexical rules are run as one automaton of partial derivatives. A computed, finite set of states is checked: after a state that accepts comes, for each byte, one that accepts or a dead one (`Re.convexB`, for all bytes by `Re.step_cut`). So the longest token is determined by one byte after it. Comments of Rust by induction. Assumed about `m_lexer`: as for C76. |
| C78 | Grammars without cached rules never look at the cache, so with C77 the two runs are equal. The counterexample for Rust runs the parser of Rust in the kernel (`Lemmas/FastParse`: the same parser with a faster lookup of rules, proved equal). |
| C79 | The functions of the generator as in C65, with a calculus for success of programs (`Works`): all expressions with a meaning are generated, and conversely what is generated has a meaning by C65. For grammars without errors, induction over the tree, from the last node to the first; the shape of trees by C64. |
| C80 | The rest of `codegen.rs` (`Model/Generate.lean`): lexer rules, verbatim part, typed tree, names. A calculus for what programs give (`Says1`) and for success (`Works`), as for C65 and C79. |
| C81 | The template of `generate/mod.rs` is read as definitions of constants, wrapper types and methods (`GenFile.constants`, `Wraps`, `MethodRuns`, `Resolves`), with `upper` of Tera as a parameter that is as expected on usual names. Capital letters and camel case are injective on usual names; then the generated names meet exactly as the names of the grammar. |
| C82–C84 | `editor/mod.rs` of Rust (`Model/RustEditor.lean`) over trees as in C14–C23; the leaf at an offset and the innermost ancestor of a type are characterised by ranges and ancestors (`Leftmost`, `Innermost`). Files that are parsed by the Rust parser are consistent (`rust_consistent`). |
| C85 | The visitor is a fold over the descendants in postorder; the order of the result follows from that of the traversal (C19). |
| C86 | `actions.rs` of Rust with both branches of `apply`; `TextEdit` of C01–C05. Types of nodes are numbers of the grammar. For parsed files nothing is assumed: that parameters of types have names is by the promises of C64 (`C64_rust_child`, `C86_parsed`). |
| C87 | `Model/Dump.lean`. A tree is a list of rows (depth, type, text), which is injective by induction; rows are written injectively because names have no blanks and strings are on one line (`Spec.Names`, `Spec.Quotes`). How Rust writes a string with `{:?}` is a parameter; `quoteText` shows that such functions exist. For parsed files the table of nodes is determined by the tree (`repr_table`), and all types have names by C64. |
| C88 | `Model/TestTools.lean`. `str::find` is `findBytes`, shown to be the first occurrence (`Spec.FirstAt`). |
| C89 | `Model/TestTools.lean`. `str::split` is shown to cut at first occurrences (`Spec.SplitBy`); how a test is parsed and dumped is a parameter. Reading and writing files is modelled by their contents. `trim` is that of ASCII. |
| C90 | As C89; where a separator may overlap with the text before it is decided for its eleven bytes. Only joining and cutting are modelled, not the processes. |
| C91 | `Model/Plugin.lean`. The editor is a world of texts that events change (`Spec.Happens`), a backend is a parameter (`Spec.Faithful`); the invariant of the session is by induction on events. For Fall by C76 and C34. Documents are lists of code points, lines end with a line feed only. That the handler sees the document after the change is part of the model. |
| C92 | By C22 and C06; `into_text_edit` ends with an empty copy, so nothing is lost in `to_vs_edits` (`intoTextEdit_complete`). The editor replaces ranges found by `positionAt` and `offsetAt` (`Spec.editorReplaces`) and decodes the strings it gets (`Spec.Decoded`). |
| C93 | `Spec/Json.lean` says what values are, which tokens they have and which events (`Json.tree`). `Lemmas/Acts.lean` and `Lemmas/Lists.lean`: what a rule does on input that is right, composed rule by rule; a list between brackets looks for its closing bracket first (`ToClose`), then items are parsed with the comma or the end behind them. Completeness by induction on values (`json_acts`), soundness by induction on the number of tokens (`value_sound`): a run without errors went over the tokens of a value. Lifted to files by `Places` (C25). Panics: the rules are safe but for the start rule (`tame_sound`), which fails exactly without a bracket. Lexing is a parameter, with the shipped rules in the examples. |
| C94 | `Spec/Strict.lean` removes commits and recovery from a grammar. `Derives.strict`: by induction on the reading (C29, C64), a reading that built no ERROR is one of that grammar; the end of the file is reached, as the rest would be in an ERROR. The promises of C64 are then checked for the strict grammar (`C94_child`), where they hold for names and bodies that the grammar with recovery does not promise. With the exact conditions of C60, C68, C73 and C85 the panics go away. |
| C95 | `Spec/Utf8.lean`: strings as encodings of lists of characters, places between characters; `C95_boundary` shows that these are what `str::is_char_boundary` accepts. The ends of nodes are sums of lengths of tokens (`places_ends`, `repr_ends`), and the copies of an edit begin and end where requests do (`intoTextEdit_ends`). Lexers are a parameter that cuts between characters, which `regex` guarantees. |
| C96 | `Spec/Utf8.lean` (`EditsString`): every action is followed to the structural edit that it makes, whose texts are shown to be strings, and C95 is used; the texts that the builder inserts are those of the edit (`intoTextEdit_inserts`). `expand` takes a text that ends three bytes before the end of the statement, whatever is there: `C96_debug` has this as a condition, and the counterexample is a file in which it is inside of a character. |
| C97 | `Spec/Bnf.lean`: grammars as lists with their tokens and their trees. `Lemmas/Exact.lean` is the part of C93 that holds for any grammar: what rules read when they add no error, by rules of composition, and `Exact.parse_iff`, which turns two facts about the first rule into the equivalence for files. `Lemmas/Bnf.lean` shows these for each rule of `bnfGrammar`. |
| C98 | Partial, because it is false: `C98_counterexample` says that in no parsed file do `alts` and `symbols` show anything, by the analysis of C64 for children that there are none of. `C98_bnf_partial` has what is there. |
| C99 | `Spec/Sexp.lean`, with `Lemmas/Exact.lean` as for C97; the nesting is by induction on the number of tokens that are left. |
| C100 | `Lemmas/ArithExact.lean`. From the reading of an errorless file in the grammar without recovery (as in C94) to an expression with the tokens, by induction on the reading and, for parentheses, on the tokens that are left; every expression is regrouped to one that needs no more parentheses (`Arithmetic.regroup`), for which C40 has the parse. That the tokens determine it follows from the parser being a function. |
| C101 | `Model/SymbolIndex.lean` joins the parser for Rust (C34), the visitor for declarations (C85), the line index (C45), the index of a file and the search (C57) and the watcher (C47); that names are strings is from C95. The lexer is a parameter that lexes by the rules and cuts between characters; lower-casing and the binary search are parameters as in C57 and C45. The order in which a hash map lists the files is any. Whether the watcher is told of a change is a hypothesis (`Spec.Seen`); C47 has counterexamples for directories that were removed. |
| C102 | `Lemmas/Arguments.lean`: the interpreter does the same for any two arrays of parameters that agree on what the expression reaches, by induction on the budget over all constructs. False in general: an argument that mentions the parameter of the rule that is called contains itself (`C102_argument_counterexample`). Proved for arguments that do not reach these parameters, and in full for grammars whose arguments are passed on or mention no parameters (`C102_plain`), which the grammars for Fall and Rust are (`C102_fall`, `C102_rust`, by a checked list of the parameters that each expression mentions). |
| C103 | On top of C99 (tokens) and C34 (every text is parsed): `Lemmas/Parens.lean` goes through the tokens of the text, each of which is a run of blanks, a run of word characters, a parenthesis, or an error at a character of another kind. Which texts tokens of a lexer with these rules have is `LexesAscii`, as in C77. |
| C104 | On top of C100 (tokens): `Lemmas/ArithText.lean` computes the tokens of a text from its characters, which needs that the lexer takes the longest number, and divides the text of the tokens of an expression into those of its parts. `C104_parses` uses C40 for the existence of a file; texts that are not expressions may panic (C100). |
| C105 | On top of C93 (tokens): `Lemmas/JsonText.lean` divides a text into words that look like tokens (`Good`), joins neighbouring blanks (`tidy`), and proves that a lexer taking the longest match finds exactly these words (`lexing`), since a number is never followed by a digit. The converse reads the text of the tokens of a value off the value. `JsonText` is mutual with fields and elements; numbers and strings are those of `json.fall`, so there are no escapes, signs or fractions. Texts that do not begin with a bracket panic (C93). |
| C106 | `Lemmas/Layout.lean`: two environments with the same answers to the questions for the number of significant tokens, their types and the strings at them (`Indistinct`) give the same events and the same number of steps; the tokens of two texts that only differ in layout are such (`indistinct_inked`). The tree without whitespace is a function of the events (`inkedOps_places`, on top of C12). `C106_types`: for grammars without strings only the types of the tokens count. `WholeWords` is necessary: with `>>` as a string over two tokens, `>>` and `> >` differ (`C106_words_counterexample`). |

## Disagreements found between the code and the claims

Recorded here as they are proved (see the `_partial` theorems and the theorems
named `..._counterexample`).

* C03: `TextRange::partial_cmp` is not antisymmetric or transitive when empty ranges are involved.
* C06: `to_vs_edits` drops a deletion that is the last operation of a script.
* C11/C12: relexing is only exact for lexers with at most one byte of lookahead.
* C15: the tree builder accepts call sequences with no or several outermost nodes.
* C22: `FileEdit` silently drops requests that conflict (the first one wins).
* C24: the type of the previous node (`prev_is`) and a pending replacement are not restored when
  an alternative fails (`C24_previous_node_leaks`).
* C25: `get_from_cache` emits events in lookahead mode.
* C28: an operand of an operator expression that produces no events gives a node linked to itself,
  and `reshuffle_events` does not terminate.
* C30: whitespace at the end of the file goes into an inner node if that node ends with an empty
  node, e.g. the ERROR node of an unfinished committed rule.
* C31: a keyword string spanning whitespace loses text; if the start rule is replaced by an
  alternative, trailing whitespace is lost.
* C32: left recursion and repetition of something that can match nothing are not rejected anywhere; the
  parser does not halt. The shipped grammars have neither.
* C33: nothing rejects a grammar whose start rule can fail, that needs more than 16 contexts or
  parameters, that replaces or links nodes in lookahead, or whose operands do not begin with a node; the
  parser panics.
* C34: the parsers of the arithmetic, JSON and `weird` grammars panic on the empty text.
* C40: if a right operand is missing the following operator takes the unfinished expression as its left
  operand even if its priority is higher: `a + * b` is read as `(a + ) * b`.
* C41: `bump_by_text` counts the lengths of significant tokens only, so a string with a space in it
  consumes tokens after its end.
* C42: with a reparse cache, a cached rule tried at the end of the input indexes out of bounds; a
  cache hit in a layer may run past the end of the layer.
* C43: `salvage_segments` does not add the length of a copy that contained the fragment, so that an
  empty fragment gets a second entry at a wrong offset.
* C44: a fragment is reused although the text after it changed; the result differs from a parse.
* C46: the match is on bytes, so that a query outside of ASCII finds names that do not contain its
  characters.
* C47: removing a directory, or replacing a file by a directory, leaves stale files in the index; changes
  between the initial walk and the start of the watcher are missed.
* C48: extending a caret in the indentation of a line may select a node that does not contain the caret.
* C51: `swap_alternatives.rs` prints `B` to standard output (left over from debugging).
* C102: in `rule nest(x) { x | '(' <nest { a x }> }` the argument of the inner call contains itself instead of the value
  that `x` has at the call.
* C57: a symbol is never found if another symbol before it in the file has the same name up to case, even if
  only the hidden one is a type; a name ending in a capital sigma is not found by typing it, as names are
  lower-cased as strings and queries by character.
* C59: two rules of the same name are reported only if some name is looked up among the rules, so the diagnostics
  depend on earlier queries (`C59_history_counterexample`); the same holds for contexts that are used only once.
  Of two rules of the same name the first is used, of two tokens the last.
* C54: a raw string with more than 30 hashes makes the lexers of the Fall, Rust and `weird` languages panic (a
  slice beyond the end). So C34 does not say that parsing such texts completes: a lexer is a total function there.
* C60: the analysis panics for grammars that are being edited: `#[atom] rule a` without a body, and
  `ast { node a {} trait }` (`C60_edit_counterexample`).
* C64: the typed accessors for what comes after a `<commit>` (the body of a rule, the text of a verbatim block, the
  names of nodes, classes and traits) panic on files with a syntax error, though they do not return an option.
* C68: a caret right before a name that follows punctuation (`<|f x>`) is not on the name: nothing is found
  (`C68_touching_counterexample`). A caret anywhere in a method, also on its name, goes to what the method selects.
  Finding usages panics with the text `ast { node }` (`C68_usages_counterexample`).
* C70: formatting is not idempotent: `rule x { | a }` gets another space each time (`C70_again_counterexample`), since
  the formatter looks at the node before `|`, which is an empty alternative. No space is put before `|` if the
  alternative before it contains a newline. A single tab next to `|` is kept.
* C71: if the selection contains a blank at one of its ends, or only one expression of a sequence is touched, the whole
  sequence is extracted (`C71_selection_counterexample`). The name `new_rule` is not new if the action is used twice
  (`C71_name_counterexample`). Parameters used in the extracted part are unresolved in the new rule.
* C73: highlighting panics for `ast { trait t { x y } node }` (`C73_panics_counterexample`), and an error without a text
  at the end of a file is shown in a range that is not in the text (`C73_within_counterexample`).
* C76, C77: relexing reuses a token if the byte after it has not changed, but raw strings of Fall, and characters and
  strings of Rust, look further. Deleting ` '` from `r# '""#'` in a Fall file leaves the name `r` where a raw string
  begins, and the tree stays wrong until the file is parsed from scratch (`C77_relex_counterexample`,
  `C76_quoted_counterexample`).
* C78: the key of the cache does not contain the contexts of the parser. In a Rust file `fn f(){a<b>()}`, an edit that puts
  the function inside of the arguments of a type, as in `type T=X<[A;{fn f(){a<b>()}}]>;`, leaves a comparison in the
  reparsed tree where parsing from scratch finds a call of `a<b>` (`C78_rust_counterexample`).
* C79: the generator panics on grammars for which no diagnostics are shown: with `< commit>` (a space) or
  `<not <commit>>`, `#[replaces]` on a private rule, `<prev_is r>` where `type(..)` of `r` does not exist, an operator that
  is a commit, and a rule without a body; it fails with an error for contextual tokens with a raw string and alternatives
  of `pratt` rules without an operator attribute (`C79_unreported_counterexample`).
* C80: the generator panics on grammars without diagnostics: names in the `ast` block such as `_f`, `f_` or `f__f`
  (`camel` of an empty word) and methods such as `a n*` for a token; it fails for a method that selects nothing, since
  methods are not asked for by the diagnostics, and for a grammar without a tokenizer
  (`C80_unreported_counterexample`). Any identifier after the dot of a method counts as `.text`.
* C81: the generated module does not compile, though nothing is reported, if a token and a rule have one name, if one of
  them is called `error` or a node `ast_node`, for a node without a rule, a variant without an item, items or methods of
  one name, a class that contains itself, and items such as `a_b` and `aB` (`C81_unreported_counterexample`). The filter
  `upper` of the template changes letters outside of ASCII, `scream` does not, so constants of such names do not meet.
  `parser_json` is put into `r##"..."##` without looking for `"##` in the texts of contextual tokens.
* C82: the keyword of `if let` in the type of an unfinished statement is taken for that of the statement
  (`C82_if_let_counterexample`).
* C83: the three bytes at the end of the statement are dropped whatever they are; the caller runs `expand` whenever `$` is
  typed, so `abcd$` becomes a statement that prints `a`, and after a statement of two bytes there is a panic
  (`C83_ending_counterexample`). The expression is put into a string literal without escaping quotes or braces.
* C84: the caller asks for breadcrumbs at every change of the selection, which is a panic at the beginning of the file; the
  leaf left of the place *before* the caret is used, so a function is listed though a space separates it from the caret
  (`C84_caret_counterexample`).
* C86: braces are added to a renamed import, and the result is not a declaration (`C86_renamed_counterexample`).
* C87: tests of trees do not look at white space and comments; a tree for another text may pass
  (`C87_hidden_counterexample`).
* C88: a caret of several bytes is found too early if the text before it ends like a caret begins
  (`C88_overlap_counterexample`).
* C89: `test r` is found in comments, in words such as `latest rule` and in the bodies of tests; tests with `"` instead of
  `r"` are not found; a comment that ends with `test r` at the end of the file, or with more than sixteen `#`, is a panic
  (`C89_collect_counterexample`). A file with trees that was cut off passes (`C89_cut_counterexample`).
* C90: a grammar without tests has one empty test; separators in tests are not escaped (`C90_tests_counterexample`), also if a
  single test is rendered.
* C78, C91: an edit of a Rust file can panic though the new text can be parsed: a function taken over from the old file is
  longer than the part of the input in which it is looked for (`C78_rust_panic_counterexample`). It is enough to paste
  `type T=X<[A;{` before `fn f(){a>b}}]>;` in the editor (`C91_rust_counterexample`).
* C91, C92: offsets of the editor are UTF-16 units, those of the backend are bytes. After `é`, deleting a letter deletes
  another one in the file (`C91_utf16_counterexample`), and ranges from the backend are shown at the wrong places
  (`C92_range_counterexample`).
* A document that is closed while it is active is parsed again and stays among the kept files (`update` calls `onChange`); by
  C91 the kept file is still the right one.
* `applyContextAction` in `code/common.ts` iterates over the result without a check for `null`.
* C93: strings of the shipped JSON lexer have no escapes and numbers are digits only (`json.fall` 14-15), so JSON texts with
  `"\""`, `-1` or `0.5` are not read as JSON; top-level values that are not in brackets panic (`C93_parses`).
* C96: `expand` takes the text up to three bytes before the end of the statement, so that it panics after `"éa"` if `$` is
  typed (`C96_debug_counterexample`).
* C98: `Prod::alts` and `Alt::symbols` of the BNF language never show anything: the alternatives are children of the node
  behind the arrow, and the symbols are nodes around the tokens (`C98_counterexample`).
* Found on the way, without a theorem: the thread of `indxr` that receives events spins if the channel is disconnected; a
  parameter of a Fall rule that is used without a call reads a slot that is not set; the order of diagnostics with the same
  severity and range depends on the order of the queries; unmatched nested brackets take exponential time in the rule
  `balanced` of `fall.fall`; a rule with an unknown `type(..)` is treated as a private one.
