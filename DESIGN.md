# Formal model of Mau (Project-Mau/mau) in Lean 4 — design

The code in `/repo` is not run here. The Lean model is written by reading the
source, function by function; every definition carries a comment with the file
and the lines it models and a note where it simplifies.

## Layout

| path | content |
|---|---|
| `lean/Verif/Basic.lean` | strings as `List Char`, Python string helpers, ordered dictionaries |
| `lean/Verif/Model/*.lean` | the model of the code |
| `lean/Verif/Spec/*.lean` | small independent specifications used in statements |
| `lean/Verif/Lemmas/*.lean` | helper lemmas |
| `lean/Verif/Props/*.lean` | the property theorems (one file per topic), each with a witness `example` |
| `properties.jsonl`, `MANIFEST.json` | the properties and their status |
| `seeded/LOG.jsonl` | mutation experiments |
| `tools/` | scripts that generate properties/manifest and run mutation tests |

## Modelling conventions

* Python `str` is `List Char`; lines are split on `\n` only where the code says
  `split("\n")`; `splitlines()` is modelled where used with the whole Python set of line
  boundaries.
* Exceptions are values. Errors are split into: the internal token error, Mau exceptions
  (a lexer error with its text, line, column and source; a parser error with its text and context;
  a visitor error with its text and the class and place of the node), Python exceptions that escape
  (IndexError, AttributeError, TypeError, ValueError, KeyError, OSError), situations left
  out of the model (`Err.unmodelled`) and `Err.fuel`, the budget is used up.
* A state changing method is a function returning the new state. In the tokens manager
  only the token index is rolled back after a caught token error; everything else
  in the parser state persists, as in the code.
* The lexers are modelled by structurally terminating functions (no fuel).
  The text parser and document parser are mutually recursive through
  nested parsing; they take a fuel argument which stands for recursion depth/steps only. A result other
  than `Err.fuel` does not depend on fuel (fuel monotonicity, proved for the text parser in
  `Lemmas/TextFuel` and for the document parser in `Lemmas/DocFuel`), and
  non-termination is "`Err.fuel` for every fuel".
* External callables (md5, `str.lower` on non ASCII, the user's id functions, files)
  are parameters of the model.
* Node identity: nodes carry ids; deferred linking (footnotes, header links, groups, toc)
  is a map over trees by id.

## Plan per property

| id | modelled | proof |
|---|---|---|
| C01 | `Context`, `merge_contexts`, display shift | lattice laws on min/max |
| C02 | `Token.to_token_list`, `from_token_list` | induction on lines |
| C03 | `TextBuffer` | case analysis, induction on lines |
| C04 | base lexer loop + 4 inline lexers | totality by structural recursion, EOF by induction |
| C05 | `DocumentLexer` | induction on the number of lines left |
| C06 | inline lexers | induction on the tail of the line |
| C07 | all lexers with positions | invariant of the lexer loop: slice of source |
| C08 | `DocumentLexer` | equation for one step, induction |
| C09 | `DocumentLexer` block function | induction on lines up to the closing line |
| C10 | `DocumentLexer` line functions | independent line classifier spec, equality |
| C11 | all lexers | simulation between two runs |
| C12 | `TokensManager` | direct, over arbitrary attempts |
| C13 | `TokensManager.collect` | refinement to a list function |
| C14 | `flatten_nested_dict`, `nest_flattened_dict` | induction on keys |
| C15, C16 | `Environment` | ordered dict laws |
| C17–C21 | `PreprocessVariablesLexer/Parser` | induction over pieces |
| C22–C26 | `ArgumentsLexer/Parser`; aliases from the variables that define them (`Spec/Aliases`) | induction over written arguments; nesting of variables (C14, C16) |
| C27 | `ConditionLexer/Parser`, `ifeval` | decision logic |
| C28–C35 | `TextLexer/TextParser` | induction over tokens / fuel |
| C36–C38, C58–C60 | document parser main loop and processors | invariants of the loop |
| C39, C40 | list processor | induction on tokens, measure on levels |
| C41, C42 | raw and source engines | induction on lines |
| C43, C44 | toc manager | independent outline spec |
| C45–C47 | managers | invariants over histories |
| C35 | text parser without step bound (`Spec.ParsesTo`: from some budget on) | bound on the length of what each nested parse is given (`Lemmas/Bounds`, `ArgBounds`, `AliasBounds`), well-founded on it; the divergent texts by induction on the budget (`Endless`) |
| C48 | document parser with blocks | frame lemma over the loop (`DocKeeps`) |
| C49, C50 | includes | invariant of the list of loaded files (`DocWhole`), environment frame; recursion through blocks by induction on the budget |
| C51 | all failures of the text parser; all failures of well-formed documents (grammar `Sound`, Spec/Sound.lean); witnesses for documents that crash | structure `Errors` over the text parser (`TextErrs`); induction over the grammar with the invariant `Standard` of the variables (`SoundEnv`, `SoundSteps`, `SoundDoc`); evaluation in the kernel for the crashing documents |
| C52, C53 | Jinja template selection | sort/argmax lemmas, round trip |
| C54, C55 | visitors, `deepcopy` | induction on trees |
| C56, C57, C61 | CLI `main` and helpers | induction over the option list, case analysis of `main` |
| C58–C60 | document parser loop | one step = one construct, runs compose (`DocCompose`) |
| C66, C67 | the remaining macros of the text parser, `ifeval` | inline grammar with macros (`Spec/Macros`), `macro_parses`, `fails_line` |
| C69 | `jinja_visitor.py`: where templates come from | directories by induction on the path; precedence as a chain of dictionaries, each described by what its source offers |
| C70 | `Model/Cli.lean`: the `try` statements of `Mau.run_*` (`guarded`), the messages handed to the handler, the log lines of `LogMessageHandler` (with source, position and context; without debug messages); case analysis over the three steps |
| C71 | Invariant of the processing functions (`Frame` with a condition on the definitions), with the link from VARIABLE tokens and block contents to the lines of the document, by induction on the recursion budget |
| C72 | Specification `Spec/Positions` (`Located`); positions of the tokens (`Lemmas/PlacesToks`), of inline nodes (`TextPlaces`), of the nodes of every processing function (`Places{Doc,Lists,Blocks,Whole}`) as an invariant with the current line, kept by the completion of the document (`PlacesFinal`); induction on the recursion budget. Columns are not part of the claim (C07 has those of tokens) |
| C73 | Specification `Spec/Blame` (`Points`, `Blames`); errors of the parsers of text, arguments, conditions and variables (`Lemmas/TextErrPlaces`: each carries a position on the line of the text), then the invariant of C72 extended with the errors every processing function may raise and with the positions of mentions and controls that may be reported later (`Safe` in `PlacesRows`), up to `finalise`; induction on the recursion budget. `C73_footnote`: the one error without a position |
| C74 | Specification `Spec/VisitErrors` (`Shown`: the nodes that have to be rendered, `Unrendered`: why a node cannot be); `accept_fails` (every way in which collecting the data of a node can fail, by cases of the node class), induction on the recursion budget; success by induction on `Shown` |
| C75 | Block processor and engines, on arbitrary delimiters, contents and following lines: empty default block, unknown engine (error at the block), known engines; `Classes` in C41, C42, C48 and C75. |
| C76 | `Spec/Columns.lean` (`Tiles`: side by side, each node over its own characters), `Lemmas/Columns.lean` (the tokens of a line lie side by side and every parse function consumes a slice of the line and gives nodes that tile it), `Lemmas/ArgColumns.lean` (the values of unadorned macro arguments are slices of the line with their own columns, so the induction goes through nested parses), `Props/Columns.lean`; documents through C58, C59 and C39 |
| C77 | `Spec/Write.lean` (`Doc`: documents as an author thinks of them, `Doc.source`: how they are written, including tags, subtypes, source code with markers and styles, comments, and macros in the text (links, images, characters, raw text, classes, custom ones), `Doc.tree`: their nodes, compared up to positions, identity numbers and the internal ids of headers), `Lemmas/Write.lean` (every written line has the meaning of its pieces, through `PreUnits`, `LineNodes` and the quoted macro arguments), `Props/Write.lean` (the lines of labels and arguments make them pending, through `C22_round_trip`; each part of a document adds its node with what is pending, whatever follows; induction on the document, nested documents of blocks through `parseDocument_run`, the end of the document only sets ids of headers) |
| C78 | `Spec/Moved.lean` (`adrift`: nodes without lines and columns; `said`: errors without their position; `meaningOf`: the result of a run without positions; `SaysNothing`: blank lines and comments), `Lemmas/{Twins,TwinText,TwinNodes,TwinDoc}.lean` (a relational proof: two runs whose tokens are equal up to positions stay in states equal up to positions; rules `Both`/`PTwin`/`DTwin` for each function of the parsers, induction on fuel for nested documents), `Props/Moved.lean` (the theorems; what blank lines and comments do to the lines that follow through `DocLines`/`DocTokens`) |
| C79 | `Spec/MovedRender.lean` (`dataAdrift`: data without the numbers under `_context`; `Placeless`: what templates print does not depend on these numbers; `SameParents`: the unmodelled parents of the two documents differ in positions only), `Lemmas/TwinVisit.lean` (a relational proof over `nodeFields`, the operations of the two visitors and the recursion), `Props/MovedRender.lean` (composed with C78 and `Mau.process`; a stand-in for Jinja that is `Placeless`) |
| C80 | `Spec/Faithful.lean` (`SameNode`: an inductive relation between nodes of two documents that follows references, too), `Props/Faithful.lean` (from the keys that C54 gives to each part: equal data give equal parts, induction on the recursion budget; `YamlVisitor` as `yamlProcess` with `yaml.dump` as an injective parameter, and an injective stand-in as an example) |
| C81 | C77, C80, C54 and C70 composed: nothing of a written document is hidden (`Bared`), the headers collected from it refer to nothing (so visiting ends), nodes which are the same to a reader are the same written document (`Props/Roundtrip.lean`) |
| C68 | `include.py`: image, raw, unknown types and error cases | one step of the document parser per line (`include_reads`) |
| C65 | document parser without step bound | triples `Ends`/`Calm` (from some budget on the result does not change and is not exhaustion), induction on the number of lines and on the number of files not yet included |
| C62–C64 | managers and finalisation | invariant `Core` of text and document parsers: every id handed out is fresh and every registered mention is in the tree; stages of finalisation (`Stages`, `Finalised`); C64 for whole documents: `Spec/Reached.lean` (`Reached`, `Uncontrolled`), no line or value can bring a control macro (`Lemmas/Uncontrolled`, `Lemmas/Stock`), every mention reached is registered (`Sown`, through the document loop, nested documents included), `Props/Overlooked.lean` |

Properties that turn out to be false of the code are kept in the list: the
negation is proved with a concrete witness and the true part is proved as a `_partial`
theorem.

## Specifications

Statements use the functions of the model that correspond to the API (`lex…`, `parseText`,
`parseDocument`, `visit`, `main`, …) and the small definitions of `lean/Verif/Spec`:

| file | what it says |
|---|---|
| `Lexing`, `LineForms` | source slices, the line forms of a document as a classification without regular expressions |
| `Environment`, `Scan`, `Preprocess` | dotted names, what "written as" means for texts with references |
| `Arguments`, `Conditions` | written argument lists and conditions and what they mean |
| `Inline`, `Macros`, `Text` | a grammar of inline text and its meaning; `ParsesTo`/`ParseFails`: the result of parsing, independent of the budget |
| `Document`, `Nodes`, `Blocks`, `Lists`, `ListTree` | reading some lines of a document, the construct they form, the node it gives |
| `Tree`, `References`, `Managers` | subtrees, references that resolve, outline, footnote numbering |
| `Includes`, `Termination` | runs that open files; the texts for which termination is claimed |
| `Variables`, `Positions` | the lines that define a variable; what it means for a node to be where it was read |
| `Sound` | a grammar of well-formed documents (C51) |
| `Templates`, `TemplateSources`, `Visitor`, `Copy`, `Cli` | template claims, structure of visited data, equality up to identity, command line |

## Trusted base

* Lean 4.33 kernel. `#print axioms` on every theorem of `MANIFEST.json` gives a subset of
  `propext`, `Classical.choice`, `Quot.sound` (the three standard axioms; a good sixth of the
  theorems need `propext` only). No axiom is declared, no `native_decide`, no `bv_decide`;
  `decide +kernel` (evaluation by the kernel) is used for concrete examples and counterexamples only.
* The reading of the Python code: the model is written by hand. As a check, the end-to-end
  tests that come with the project (the 47 documents of `/repo/tests/e2e/cases`, with the expected
  YAML output stored beside them) were evaluated in the model and compared: all 47 agree, with
  `_context` and `parent` left out of the comparison (`tools/e2e`). The unit tests of the parsers were compared as well:
  the nodes and their contexts of 160 tests (`tools/positions`; four more expect mocked objects), and text and context of the
  error of all 31 tests in `tests/parsers/{document_parser,text_parser}` that expect a particular one (`tools/errors`).
* The specifications in `Spec/` say what the English property says.

### Modelled

| code | model |
|---|---|
| `mau/token.py`, `mau/text_buffer.py` | `Model/Token`, `Model/TextBuffer` |
| `mau/lexers/*` (all five) | `Model/Lexer`, `Model/DocumentLexer` |
| `mau/environment/environment.py`, `helpers.py` | `Model/Environment` |
| `mau/parsers/managers/tokens_manager.py` | `Model/TokensManager` |
| `mau/parsers/preprocess_variables_parser.py` | `Model/Preprocess` |
| `mau/parsers/arguments_parser.py`, `condition_parser.py`, `parsers/buffers` | `Model/Arguments`, `Model/Managers`, `Model/DocumentParser` |
| `mau/parsers/text_parser.py` | `Model/TextParser` |
| `mau/parsers/managers/*` (footnotes, header links, toc, block groups, …) | `Model/Managers` |
| `mau/parsers/document_parser.py`, `document_processors/*` | `Model/DocumentParser` |
| `mau/nodes/*` (classes, fields, `deepcopy`, `accept`) | `Model/Node`, `Model/DeepCopy` |
| `mau/visitors/base_visitor.py` | `Model/Visitor` |
| `mau/visitors/jinja_visitor.py`: template names, matching, order, traversal | `Model/Jinja` |
| `mau/__init__.py`, `mau/cli.py` | `Model/Cli` |

### Not modelled, or a parameter of the model

* Rendering a Jinja template (a function of the set of templates, the name, the configuration and the data, which may fail), the discovery of template providers
  (the installed ones are given), making paths absolute, and read errors of single template files.
* The YAML loader (a function from file to nested data) and `yaml.dump` (`visitors/yaml_visitor.py` is `yamlProcess`, with the dump as a parameter), `argparse` (the model starts from the parsed
  options), debug output, the help texts inside messages, the data and additional information of visitor messages, and the list of known
  aliases in the message about an unknown alias (a message is a constructor of `Msg`).
* md5 and `str.lower` on other than ASCII letters, the user's header id function, the file system
  (functions given in the configuration).
* The link from a node to its parent (`parent` keys of the visited data) as mutable state; the Jinja model passes
  the parent down.
* `int()` on a text with a character outside ASCII, and aliases whose configured value is not a
  dictionary of strings: `Err.unmodelled`, never counted as a Mau error.
* The parser objects a caller may put in the environment (`mau.parser.document_wrapper`, `header_internal_id_function`,
  `footnote_unique_id_function`): an opaque object stands for the usual one, text in place of the wrapper is the
  TypeError of Python (`C51_wrapper_crash`), text in place of an id function is `Err.unmodelled` (`parserObjects`).
* A value `None` in the environment (only YAML files can give one), and the sharing of an empty dictionary between an
  environment and a copy of it (an empty namespace; it is never written to afterwards).
* Python's recursion limit and memory: a run that would recurse for ever is `Err.fuel` for every budget.

