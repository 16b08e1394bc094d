{"id": "C01", "title": "Merging source positions covers both parts", "statement": "Merging two source contexts gives the smallest context (line range and column range taken separately) that covers both, keeping the first one's source; merging is idempotent, associative, and commutative up to the source name. Shifting a context for display moves only the lines and leaves the original context unchanged.", "quantifier": "all pairs/triples of contexts with arbitrary line and column numbers", "why_tests_cant": "positions are unbounded integers; a test samples a few", "anchors": ["mau/text_buffer.py: Context.merge_contexts, move_to, adjust_context, adjust_position"]}
{"id": "C02", "title": "Splitting a text token into lines loses nothing", "statement": "Splitting a text token into one token per line and joining the values with a newline gives the original value back; the i-th line token sits i lines below the token's start, on one line, with a column span equal to its length. Joining tokens concatenates their values, and the position of the joined token is the smallest that covers those of the first and of the last; joining a single token gives back its value and its position.", "quantifier": "every text value (any number of lines, any length) and every start position", "why_tests_cant": "unbounded number of lines", "anchors": ["mau/token.py: Token.to_token_list, Token.from_token_list"]}
{"id": "C03", "title": "The text buffer reports end of file exactly when no character is left", "statement": "Walking a loaded text line by line visits exactly the lines of the text in order; the buffer is at EOF exactly when it is past the last line or at/after the end of the last line; reading properties never raises and returns the empty string beyond the end; `tail` is always current_char followed by the next tail.", "quantifier": "every text, every sequence of nextline/skip calls", "why_tests_cant": "history of navigation calls is unbounded", "anchors": ["mau/text_buffer.py: TextBuffer"]}
{"id": "C04", "title": "Inline lexers are total", "statement": "The text, arguments and variable-preprocessing lexers terminate on every text (including multi-line text) and produce a token list that ends with exactly one EOF token; they never raise an error ('Cannot process token', 'Loop detected'). The condition lexer also terminates on every text; it gives such a token list exactly when every non-blank line is a condition, and otherwise reports the beginning of the first line that is not.", "quantifier": "every input text and every start position", "why_tests_cant": "all strings", "anchors": ["mau/lexers/base_lexer.py: process, _process", "mau/lexers/text_lexer.py", "mau/lexers/arguments_lexer.py", "mau/lexers/preprocess_variables_lexer.py", "mau/lexers/condition_lexer.py"]}
{"id": "C05", "title": "The document lexer is total up to two documented errors", "statement": "Lexing any document terminates; it either yields tokens ending with exactly one EOF or raises the lexer error 'Unclosed block.' or 'Unclosed multiline comment.', and the latter happen only when a delimiter line has no later closing line.", "quantifier": "every document text", "why_tests_cant": "all documents", "anchors": ["mau/lexers/document_lexer.py", "mau/lexers/base_lexer.py"]}
{"id": "C06", "title": "Inline lexing is lossless", "statement": "For every single-line text the concatenated token values give back the text, except that a run of spaces at the very end may be dropped (always dropped by the text and arguments lexers unless the whole text is blank; dropped by the preprocess lexer only directly after a special character).", "quantifier": "every single-line text", "why_tests_cant": "all strings", "anchors": ["mau/lexers/base_lexer.py: _process_trailing_spaces, _process_empty_line", "mau/lexers/text_lexer.py", "mau/lexers/arguments_lexer.py", "mau/lexers/preprocess_variables_lexer.py"]}
{"id": "C07", "title": "Token positions are accurate", "statement": "The context of every token produced by a lexer delimits exactly the characters of the source that form the token's value (start position inclusive, end exclusive, offset by the start line and - on the first line - the start column), for every lexer.", "quantifier": "every text, every token, every start offset", "why_tests_cant": "all strings and all tokens in them", "anchors": ["mau/lexers/base_lexer.py: _create_token_and_skip", "mau/text_buffer.py: position", "mau/lexers/document_lexer.py"]}
{"id": "C08", "title": "Comments leave no trace", "statement": "A single-line comment (outside blocks), or a closed multi-line comment, adds no token: lexing a document with it gives the same token types and values as lexing the document without it.", "quantifier": "every document prefix/suffix and every comment content", "why_tests_cant": "all documents and comment positions", "anchors": ["mau/lexers/document_lexer.py: _process_comment, _process_multiline_comment"]}
{"id": "C09", "title": "Block content is captured verbatim", "statement": "Whatever lines stand between a block delimiter and the next line equal to it - including comments, other delimiters, headers, blank lines - become one text token whose value is those lines joined by newlines; no content token exists when there are none.", "quantifier": "every delimiter and every list of content lines", "why_tests_cant": "unbounded number of lines of arbitrary content", "anchors": ["mau/lexers/document_lexer.py: _process_block"]}
{"id": "C10", "title": "Each document line becomes the construct its syntax says", "statement": "A non-blank line outside blocks is turned into tokens by the first matching documented form (comment, rule, block delimiter, control, include, variable, arguments, label, list item, header, else text), and the token values together with the skipped spaces give the line back.", "quantifier": "every line", "why_tests_cant": "all strings", "anchors": ["mau/lexers/document_lexer.py: _process_functions and all _process_* functions"]}
{"id": "C11", "title": "Lexing is independent of where the text sits", "statement": "Lexing a text with a start line and column yields the same token types and values as lexing it at the origin, with every context shifted by the start line, and by the start column on the first line only.", "quantifier": "every text and every start position", "why_tests_cant": "all texts and offsets", "anchors": ["mau/lexers/base_lexer.py", "mau/text_buffer.py: TextBuffer.position, nextline"]}
{"id": "C12", "title": "A failed parse attempt does not move the parser", "statement": "Running a parse attempt inside the tokens manager's context leaves the position as it was if the attempt fails (the token error is swallowed, any other error propagates), and keeps the attempt's position if it succeeds; peeking never moves; getting a token advances by one and returns what peek would have returned.", "quantifier": "every token list, position and attempt", "why_tests_cant": "all token lists and all nested attempts", "anchors": ["mau/parsers/managers/tokens_manager.py: __enter__, __exit__, peek_token, get_token"]}
{"id": "C13", "title": "Collecting tokens stops at the first unescaped stop token", "statement": "Collecting up to a set of stop tokens returns exactly the tokens before the first stop token (or EOF) that is not preceded by a backslash; a backslash before an ordinary token is kept with it, a backslash before a stop token is dropped unless preservation was requested.", "quantifier": "every token list and stop set", "why_tests_cant": "all token lists", "anchors": ["mau/parsers/managers/tokens_manager.py: collect, collect_join"]}
{"id": "C14", "title": "Flat and nested configuration are interchangeable", "statement": "Converting an environment to a nested dictionary and back gives the same variables, whenever no variable name is a dotted prefix of another one and no name starts with a dot.", "quantifier": "every set of variables", "why_tests_cant": "all key sets and nesting depths", "anchors": ["mau/environment/helpers.py: flatten_nested_dict, nest_flattened_dict", "mau/environment/environment.py: asdict, from_dict, from_environment"]}
{"id": "C15", "title": "Environment updates have the documented precedence", "statement": "After update(other) every variable of `other` (under the namespace, if any) has other's value and the remaining ones are unchanged; with overwrite=False existing variables win; setting a variable makes exactly that variable readable with the new value.", "quantifier": "every pair of environments, every history of updates", "why_tests_cant": "unbounded histories", "anchors": ["mau/environment/environment.py: update, dupdate, __setitem__, __getitem__"]}
{"id": "C16", "title": "Namespace lookup returns exactly the variables below the namespace", "statement": "get(key) returns the variable when it exists; otherwise, when variables named key.x exist, an environment with exactly those variables under the names x; otherwise the default.", "quantifier": "every environment and key", "why_tests_cant": "all key sets", "anchors": ["mau/environment/environment.py: get"]}
{"id": "C17", "title": "Variable substitution replaces exactly the variable references", "statement": "In a single-line text without backslashes and backticks, written as literal pieces and references {name} to defined variables, preprocessing returns the pieces unchanged with each reference replaced by the variable's value (inserted verbatim, not re-scanned); a text without special characters is returned unchanged. Only spaces at the very end directly after a special character are ignored.", "quantifier": "every text, every environment", "why_tests_cant": "all texts and environments", "anchors": ["mau/parsers/preprocess_variables_parser.py", "mau/lexers/preprocess_variables_lexer.py"]}
{"id": "C18", "title": "Text in backticks is exempt from substitution", "statement": "Preprocessing a single-line text leaves a closed backtick span unchanged, whatever braces it contains and whatever self-contained text (plain text, escapes, references, other spans) stands around it.", "quantifier": "every span content", "why_tests_cant": "all strings", "anchors": ["mau/parsers/preprocess_variables_parser.py: _process_verbatim"]}
{"id": "C19", "title": "References to undefined variables are reported", "statement": "If a reference {name} in a single-line text, preceded by self-contained text (plain text, escapes, references, closed spans), names an undefined variable, preprocessing raises a Mau parser error naming that variable whatever follows; it never yields output.", "quantifier": "every text with such a reference, every environment lacking the variable", "why_tests_cant": "all texts and environments", "anchors": ["mau/parsers/preprocess_variables_parser.py: _process_curly"]}
{"id": "C20", "title": "Escaped braces are literal", "statement": "\\{ and \\} yield the braces themselves and {{text}} yields {text}, without any variable lookup; every other backslash pair is passed on unchanged to the text parser.", "quantifier": "every surrounding text", "why_tests_cant": "all strings", "anchors": ["mau/parsers/preprocess_variables_parser.py: _process_escaped_char, _process_curly"]}
{"id": "C21", "title": "Preprocessing does not lose characters", "statement": "The preprocessor drops no visible character of a single-line text: whenever it succeeds, everything except braces of references, one pair of doubled braces and backslashes before braces reaches the output in order (spaces at the very end and a lone backslash at the very end may go).", "quantifier": "every text", "why_tests_cant": "all strings", "anchors": ["mau/parsers/preprocess_variables_parser.py"]}
{"id": "C22", "title": "Arguments round-trip", "statement": "Writing a list of positional values followed by named values in the documented syntax (in quotes with inner quotes escaped, or bare where the value has no special characters), separated by commas and any number of spaces, and parsing it gives back exactly these values, in order. Values of named arguments are read without surrounding spaces; a value in quotes may contain backslashes unless one stands directly before a double quote.", "quantifier": "every list of values as above (positional ones not starting with the marks # * @) and every list of distinct keys", "why_tests_cant": "unbounded number of arguments of arbitrary content", "anchors": ["mau/parsers/arguments_parser.py: _process_named_argument, _process_unnamed_argument", "mau/lexers/arguments_lexer.py"]}
{"id": "C23", "title": "Positional arguments cannot follow named ones", "statement": "Parsing arguments in which a positional argument follows a named one raises the Mau parser error 'Unnamed arguments after named arguments are forbidden.'; no result is produced.", "quantifier": "every argument list with that shape", "why_tests_cant": "all argument lists", "anchors": ["mau/parsers/arguments_parser.py: _process_unnamed_argument"]}
{"id": "C24", "title": "Tags, subtype and alias are separated from plain arguments", "statement": "Positional arguments starting with # become tags (those starting with #mau: internal tags), the one starting with * the subtype, the one starting with @ the alias; all others stay positional in order; more than one subtype or alias is an error.", "quantifier": "every list of positional arguments, each with at most one mark", "why_tests_cant": "all lists", "anchors": ["mau/parsers/arguments_parser.py: _isolate_by_prefix, _isolate_tags_and_subtype, arguments"]}
{"id": "C25", "title": "Aliases only fill in what is missing", "statement": "Expanding an alias never changes a named argument or subtype given explicitly; it adds exactly the missing ones, then names positional arguments; the resulting mapping does not depend on the iteration order of the set of missing keys. An alias is what the variables mau.parser.aliases.NAME.args.KEY, .names and .subtype define; an alias without settings is an error naming it.", "quantifier": "every alias definition, every argument list, every set iteration order", "why_tests_cant": "hash-randomised set order, all definitions", "anchors": ["mau/parsers/arguments_parser.py: _isolate_tags_and_subtype"]}
{"id": "C26", "title": "Naming positional arguments", "statement": "Assigning names to positional arguments pairs the names not already used with the positional values in order; existing named values are untouched; surplus values stay positional; nothing is lost when there are as many or more values than free names, and nothing is invented.", "quantifier": "every list of values, mapping and list of distinct names", "why_tests_cant": "all lists", "anchors": ["mau/nodes/node_arguments.py: set_names"]}
{"id": "C27", "title": "Conditions mean what they say", "statement": "A condition `variable == value` (any spaces around the comparison) is true exactly if the variable is defined with that string value, `!=` is its negation; an undefined variable is a Mau error; a non-string variable value is never equal. A condition text that spans several lines stands for the condition on its last line. In a control line references in the condition are replaced first, and an operator other than `if` is a Mau error.", "quantifier": "every variable name, value, environment", "why_tests_cant": "all strings and environments", "anchors": ["mau/parsers/condition_parser.py", "mau/lexers/condition_lexer.py", "mau/parsers/buffers/control_buffer.py: Control.process"]}
{"id": "C28", "title": "Plain text stays plain text", "statement": "Parsing a single-line text without special characters yields one text node with exactly that text (trailing spaces removed).", "quantifier": "every such text", "why_tests_cant": "all strings", "anchors": ["mau/parsers/text_parser.py: _parse_sentence, _parse_word", "mau/lexers/text_lexer.py"]}
{"id": "C29", "title": "Backslash escaping works for every text", "statement": "For any single-line text (not ending in a space), putting a backslash before every special character and running it through variable preprocessing and the text parser yields one text node with exactly the original text.", "quantifier": "every string", "why_tests_cant": "all strings", "anchors": ["mau/parsers/text_parser.py: _parse_backslash_escaped", "mau/parsers/preprocess_variables_parser.py: _process_escaped_char", "mau/parsers/document_parser.py: _parse_text"]}
{"id": "C30", "title": "Verbatim and dollar/percent spans are literal", "statement": "A closed backtick span yields one verbatim node with exactly the enclosed text, a closed $..$ or %..% span a text node with exactly the enclosed text, whatever style markers, macros or brackets are inside (no backslash inside).", "quantifier": "every enclosed text", "why_tests_cant": "all strings", "anchors": ["mau/parsers/text_parser.py: _parse_verbatim, _parse_escaped"]}
{"id": "C31", "title": "Style markers produce style nodes", "statement": "A plain text enclosed in a pair of style markers yields one style node of the corresponding kind containing that text; an unpaired marker is kept as literal text.", "quantifier": "every marker and text", "why_tests_cant": "all strings", "anchors": ["mau/parsers/text_parser.py: _parse_style"]}
{"id": "C32", "title": "The text parser loses no ordinary character", "statement": "For every text without '[' the ordinary (non-special) characters of the parsed nodes, read in order, are exactly the ordinary characters of the text (trailing spaces of the line aside), however markers are nested or unbalanced.", "quantifier": "every text without '['", "why_tests_cant": "all strings, all nestings of markers", "anchors": ["mau/parsers/text_parser.py"]}
{"id": "C33", "title": "Link macros", "statement": "[link](target, \"text\") yields a link node with that target and the parsed text as content, [link](target) uses the target as text, mailto adds the prefix; a missing target is a Mau error.", "quantifier": "all targets and texts", "why_tests_cant": "all strings", "anchors": ["mau/parsers/text_parser.py: _parse_macro_link, _parse_macro_mailto"]}
{"id": "C34", "title": "Conditional macro selects one branch", "statement": "[if:VAR==VALUE](\"yes\",\"no\") yields the nodes of parsing `yes` if the condition holds and of `no` (nothing if absent) otherwise; the other branch has no effect. A condition on an undefined variable, or a text that is not a condition, is a Mau error that names it.", "quantifier": "all variables, values, environments, branch texts", "why_tests_cant": "all strings", "anchors": ["mau/parsers/text_parser.py: _parse_macro_control"]}
{"id": "C35", "title": "Text parsing always terminates", "statement": "Parsing any text in any environment terminates (with nodes or an error).", "quantifier": "every text and environment", "why_tests_cant": "non-termination cannot be observed by a test", "anchors": ["mau/parsers/text_parser.py: lex_and_parse recursion, _parse_macro_control"]}
{"id": "C36", "title": "Variable definitions", "statement": "`:name:value` defines exactly the variable `name` as the value with references substituted at definition time; `:+name:`/`:-name:` define \"true\"/\"false\"; a definition without value is an error; a definition affects only later text and consumes nothing but its own line.", "quantifier": "every name, value and following document", "why_tests_cant": "all documents", "anchors": ["mau/parsers/document_processors/variable_definition.py"]}
{"id": "C37", "title": "Arguments and labels attach to the next node only", "statement": "Pending arguments and labels are attached to the next document node and are gone afterwards; of several argument lines the last wins, of several labels with one role the last wins; a node without pending ones gets none. Blank lines and variable definitions in between do not matter. References in a line of arguments are replaced before it is read.", "quantifier": "every sequence of attachments and nodes", "why_tests_cant": "unbounded sequences", "anchors": ["mau/parsers/buffers/*.py", "mau/parsers/document_parser.py: pop_labels", "mau/parsers/document_processors/*.py"]}
{"id": "C38", "title": "A control condition decides on exactly the next node", "statement": "A node preceded by a control is kept if the condition holds and dropped otherwise (with its arguments and labels consumed); the following node is not affected. (For a block the condition is evaluated after its content has been read.)", "quantifier": "every node kind, condition and following document", "why_tests_cant": "all documents", "anchors": ["mau/parsers/document_processors/*.py", "mau/parsers/buffers/control_buffer.py"]}
{"id": "C39", "title": "Lists keep every item, in order, at its level", "statement": "Parsing a run of list lines yields lists whose items, read depth-first, are exactly the lines' items in order with level = number of prefix symbols; items of one list have one level, a nested list is deeper than the items before it; ordered/unordered is decided by the first item's symbol.", "quantifier": "every sequence of levels and item texts", "why_tests_cant": "unbounded length and depth", "anchors": ["mau/parsers/document_processors/list.py: _process_list_nodes, list_processor"]}
{"id": "C40", "title": "Automatic list numbering continues", "statement": "A list with start=auto starts at the number following the last item of the previous ordered list; a list with start=N starts at N, the default is 1.", "quantifier": "every sequence of lists", "why_tests_cant": "unbounded sequences", "anchors": ["mau/parsers/document_processors/list.py: list_processor"]}
{"id": "C41", "title": "Raw blocks preserve their content", "statement": "A raw block yields one raw line per content line, in order, with unchanged text and the right source line; joining them gives the content back (content that is one empty line counts as no content).", "quantifier": "every content", "why_tests_cant": "all texts", "anchors": ["mau/parsers/document_processors/block_engines/raw.py"]}
{"id": "C42", "title": "Source blocks preserve code and split markers", "statement": "A source block yields one code line per content line numbered 1..n; a line not ending with the delimiter is unchanged; for a line code+delimiter+label+delimiter the code is kept and the label becomes the marker, or the highlight style if it starts with the highlight prefix (aliases resolved, empty = default; an empty label gives no marker; content that is one empty line counts as no content).", "quantifier": "every content, delimiter and prefix", "why_tests_cant": "all texts", "anchors": ["mau/parsers/document_processors/block_engines/source.py"]}
{"id": "C43", "title": "The table of contents is the header outline", "statement": "The nested table of contents contains every header exactly once in document order; each entry's children have a strictly greater level; the parent of a header is the nearest preceding header of smaller level.", "quantifier": "every sequence of header levels", "why_tests_cant": "unbounded sequences", "anchors": ["mau/parsers/managers/toc_manager.py: add_nodes_under_level, TocManager.process"]}
{"id": "C44", "title": "Header ids", "statement": "After processing every header has an internal id; an id given explicitly is kept; the default id depends only on level and text, contains only lowercase letters, digits, dashes and dots; default ids clash only if level and text agree or the four digits taken from the digest collide.", "quantifier": "every list of headers", "why_tests_cant": "all header texts", "anchors": ["mau/parsers/managers/toc_manager.py: default_header_internal_id, TocManager.process"]}
{"id": "C45", "title": "Footnotes are numbered by definition and linked by name", "statement": "Footnotes get public ids 1..n in order of definition; every collected mention is linked to the footnote of its name; a mention of an undefined footnote, or a second definition of a name in the same text, is a Mau error (a definition merged from a block with isolate=false replaces an earlier one); every footnote list contains all footnotes in that order.", "quantifier": "every sequence of definitions and mentions", "why_tests_cant": "unbounded sequences", "anchors": ["mau/parsers/managers/footnotes_manager.py"]}
{"id": "C46", "title": "Header links resolve to the header of that name", "statement": "After processing, every collected header link refers to the header with its name and, if it had no text, carries a copy of the header's content; duplicate names and unknown targets are Mau errors.", "quantifier": "every sequence of headers and links", "why_tests_cant": "unbounded sequences", "anchors": ["mau/parsers/managers/header_links_manager.py"]}
{"id": "C47", "title": "Block groups collect their blocks", "statement": "Each group node receives exactly the blocks of its group under their positions; a position can be taken only once per group; a group node for an unknown group is a Mau error; grouped blocks do not appear in the normal flow.", "quantifier": "every sequence of blocks and group nodes", "why_tests_cant": "unbounded sequences", "anchors": ["mau/parsers/managers/blockgroup_manager.py", "mau/parsers/document_processors/block.py"]}
{"id": "C48", "title": "Blocks are isolated unless requested", "statement": "Headers and footnotes inside a block are not added to the enclosing document's table of contents and footnotes, unless the block has isolate=false, in which case all of them are.", "quantifier": "every block content and nesting", "why_tests_cant": "all documents", "anchors": ["mau/parsers/document_processors/block_engines/default.py: parse_block_content"]}
{"id": "C49", "title": "Include loops are detected", "statement": "Processing a document whose files include each other recursively ends with a Mau error instead of recursing forever; a chain of includes never opens the same file twice.", "quantifier": "every set of files", "why_tests_cant": "arbitrary include graphs", "anchors": ["mau/parsers/document_processors/include.py: _parse_mau", "mau/parsers/document_parser.py: forbidden_includes"]}
{"id": "C50", "title": "Included files cannot change the includer's variables", "statement": "An included file sees the includer's variables (or none with pass_environment=false) plus the call variables, and nothing it defines is visible afterwards in the including file. (Variable names that start with a dot, or one of which is a namespace of another, cannot be handed over.)", "quantifier": "every environment whose names can be handed over, and every included document", "why_tests_cant": "all documents", "anchors": ["mau/parsers/document_processors/include.py: _parse_mau", "mau/environment/environment.py: from_environment"]}
{"id": "C51", "title": "Every failure is a Mau error", "statement": "Processing any document text either succeeds or raises a Mau exception (reported through the message handler), never a bare Python exception.", "quantifier": "every document", "why_tests_cant": "all documents", "anchors": ["mau/__init__.py: Mau.run_parser", "mau/parsers/**"]}
{"id": "C52", "title": "The most specific template wins", "statement": "The template selected for a node matches all its claims, is found under the first configured prefix that has a match (unprefixed ones last), and has the greatest specificity among the matching templates of that prefix, earlier definitions winning ties; if none matches, a Mau error is raised.", "quantifier": "every set of templates, prefixes and node", "why_tests_cant": "all template sets", "anchors": ["mau/visitors/jinja_visitor.py: Template.match, specificity, JinjaVisitor.__init__, _find_matching_template"]}
{"id": "C53", "title": "Template names encode their claims", "statement": "Building a template name from claims (type, subtype, prefix, parent type, parent subtype, tags, custom fields, in any order) and parsing it gives the claims back, for claims that can be written in a name (no dot or double underscore in them, no subtype that looks like another claim, at most one value per single claim); a name without type is rejected.", "quantifier": "every set of claims", "why_tests_cant": "all strings", "anchors": ["mau/visitors/jinja_visitor.py: Template.from_name"]}
{"id": "C54", "title": "Visiting preserves the document structure", "statement": "The visitor output for a node lists the outputs of exactly its children in order and of its labels per role, with the node's type, arguments, tags and subtype, its place and its parent on request; the Jinja visitor joins the children with the separator of the node type. Visiting succeeds unless header references are cyclic.", "quantifier": "every node tree", "why_tests_cant": "unbounded trees", "anchors": ["mau/visitors/base_visitor.py", "mau/visitors/jinja_visitor.py: visitlist"]}
{"id": "C55", "title": "Copying a node gives an equal node", "statement": "The deep copy of a node has the same type, fields, arguments, position and (recursively) children and labels, with the copied node as parent of the copied children, and shares no node with the original.", "quantifier": "every node tree", "why_tests_cant": "unbounded trees", "anchors": ["mau/nodes/*.py: deepcopy"]}
{"id": "C56", "title": "Command line variables and files land in their namespace", "statement": "Each KEY=VALUE given on the command line is readable afterwards as mau.<namespace>.KEY with that value (last one wins), other variables are unchanged; one without exactly one equals sign raises; the values of environment files land under their key (or the stem of the file name), for keys that are not dotted prefixes of each other; an unreadable file raises.", "quantifier": "every list of variables", "why_tests_cant": "all lists", "anchors": ["mau/__init__.py: load_environment_variables, load_environment_files"]}
{"id": "C57", "title": "The default output file is not the input file", "statement": "When no output file is given, the output is written next to the input under the visitor's extension and the input is never overwritten.", "quantifier": "every input file name", "why_tests_cant": "all strings", "anchors": ["mau/cli.py: main, write_output"]}
{"id": "C58", "title": "Paragraphs keep their lines", "statement": "In an environment whose parser objects are the usual ones, a run of consecutive text lines yields one paragraph with one paragraph line per text line in order, each holding the parse of that line; a blank line ends the paragraph.", "quantifier": "every sequence of text lines", "why_tests_cant": "unbounded sequences", "anchors": ["mau/parsers/document_processors/paragraph.py"]}
{"id": "C59", "title": "Headers keep their level and text", "statement": "A line of n equal signs followed by text yields a header of level n with the parse of the text, registered in the table of contents exactly if it is kept.", "quantifier": "every n and text", "why_tests_cant": "unbounded levels, all texts", "anchors": ["mau/parsers/document_processors/header.py", "mau/lexers/document_lexer.py: _process_header"]}
{"id": "C60", "title": "Document nodes come out in source order", "statement": "The nodes of the document appear in the order of their source lines; processing the rest of a document never alters or removes nodes already produced (other than resolving links).", "quantifier": "every document", "why_tests_cant": "all documents", "anchors": ["mau/parsers/base_parser.py: parse, _save", "mau/parsers/document_parser.py"]}
{"id": "C61", "title": "A failed run writes no output", "statement": "A run of the command line program either ends normally and then has written exactly the rendered document and a newline to the output file (or the standard output for -), or ends with an exit code or exception and has written nothing; Mau errors give exit code 1.", "quantifier": "every command line and every content of the files", "why_tests_cant": "all documents and environments", "anchors": ["mau/cli.py: main, write_output"]}
{"id": "C62", "title": "Every reference in the output resolves", "statement": "After a successful parse every header, footnote or link reference held by a node of the document points to exactly one header or footnote of the document (one object per identity). Once all lines are read, the parse fails only because of an undefined footnote, header or group name.", "quantifier": "every document", "why_tests_cant": "all documents", "anchors": ["mau/parsers/managers/*.py: process", "mau/parsers/document_parser.py: finalise"]}
{"id": "C63", "title": "Completing the document keeps its nodes", "statement": "The final step of parsing (footnotes, table of contents, links, groups) keeps the nodes of the document, their order, arguments and source positions; nodes that are not completed keep their class, and contain the completed nodes.", "quantifier": "every document", "why_tests_cant": "all documents", "anchors": ["mau/parsers/document_parser.py: finalise", "mau/parsers/managers/*.py: process"]}
{"id": "C64", "title": "No mention or link is overlooked", "statement": "Every footnote mention and every header link written in the text of a document is collected, so that it is linked at the end or reported as undefined.", "quantifier": "every text", "why_tests_cant": "all texts and nestings of styles and macros", "anchors": ["mau/parsers/text_parser.py: _parse_macro_footnote, _parse_macro_header, lex_and_parse", "mau/parsers/document_parser.py: _parse_text"]}
{"id": "C65", "title": "Processing a document always ends", "statement": "For every document, every set of readable files and every environment, processing ends: with a document or with an error.", "quantifier": "every document, set of files and environment", "why_tests_cant": "unbounded nesting of blocks, includes and macros", "anchors": ["mau/parsers/base_parser.py: parse", "mau/parsers/document_processors/block.py", "mau/parsers/document_processors/include.py", "mau/parsers/text_parser.py"]}
{"id": "C66", "title": "The other macros keep what they are given", "statement": "The class macro keeps the parse of its text and its classes in order; image keeps the four values given; unicode and raw keep their value unparsed; footnote and header give a mention of that name (header with the parse of its text); a macro with another name keeps its name and arguments. A missing mandatory argument is a Mau error, and an error in the text of a macro is the error of the whole text.", "quantifier": "every macro, argument list and place in a line", "why_tests_cant": "all texts and arguments", "anchors": ["mau/parsers/text_parser.py: _parse_macro_class, _parse_macro_image, _parse_macro_unicode, _parse_macro_raw, _parse_macro_footnote, _parse_macro_header_link"]}
{"id": "C67", "title": "The macro ifeval evaluates the selected variable", "statement": "[ifeval:VAR==VALUE](x, y) stands for the parse of the value of the variable named by the selected argument; an undefined variable, no argument to select, an undefined variable in the condition, and an unknown operator (if-something) are Mau errors.", "quantifier": "every condition, argument list and environment", "why_tests_cant": "all texts and environments", "anchors": ["mau/parsers/text_parser.py: _parse_macro_control"]}
{"id": "C68", "title": "Includes of images, raw files and other types", "statement": "<< image gives one image node with exactly the address, description and classes given (by name or position); << raw gives one raw line per line of the file, which joined are the file; any other type keeps the type and arguments. Missing address, missing file, and arguments given both before and after the colon are Mau errors. The node stands on the line of the include.", "quantifier": "every include line, state of the parser and file", "why_tests_cant": "all arguments and file contents", "anchors": ["mau/parsers/document_processors/include.py: _parse_image, _parse_raw, include_processor"]}
{"id": "C69", "title": "The strongest source of templates wins", "statement": "A Jinja visitor has exactly the templates of its sources: the default templates, the requested providers, every file with the template extension at any depth of the configured directories (named by its path with dots), and the configuration itself (where a text in the place of a list stands for the list of its characters). If several sources have a template of the same name, the later one in this order wins. Asking for a provider that is not installed is a Mau error naming it.", "quantifier": "every configuration, set of providers and directory tree without ambiguous names", "why_tests_cant": "all directory trees and configurations", "anchors": ["mau/visitors/jinja_visitor.py: load_templates_from_providers, _load_templates_from_path, load_templates_from_filesystem, JinjaVisitor.__init__"]}
{"id": "C70", "title": "Every failure is reported once", "statement": "`Mau.process` fails exactly if lexing the text, parsing it or visiting the document fails, with the same exception; for a Mau exception the message handler gets its message once and nothing else, for other exceptions and on success it gets no error. On the command line a Mau error of any of the three steps is logged once, with its kind and its text, and the exit code is 1; a run that succeeds logs no error.", "quantifier": "every text, environment, visitor and command line", "why_tests_cant": "all inputs and all ways to fail", "anchors": ["mau/__init__.py: Mau.run_lexer, Mau.run_parser, Mau.run_visitor, Mau.process", "mau/message.py: MauException, BaseMessageHandler.process, LogMessageHandler", "mau/cli.py: main"]}
{"id": "C71", "title": "Variables change only where the document says so", "statement": "A variable which no line of the document defines (`:k:value`, `:+k:`, `:-k:`, outside or inside of blocks) has after the processing the value given from outside, or else the built-in default, whatever else the document contains (included files, arguments, macros, lists, ...). A defined variable keeps its value until a line defines it again. The visitor, and so every template, works with the variables as the document leaves them.", "quantifier": "every document, environment and variable", "why_tests_cant": "all documents", "anchors": ["mau/parsers/document_processors/variable_definition.py", "mau/parsers/document_parser.py: DocumentParser.__init__", "mau/environment/environment.py: update", "mau/__init__.py: Mau.process"]}
{"id": "C72", "title": "Nodes are where they were read", "statement": "Every node of a document records the file it was read from (the document, or the included file) and starts on a line of that file; the content of a node starts on the lines of the node, in the order of the document; the nodes of a line of text are on that line. For the nodes of inline text this needs that no variable has a value with a newline or an empty name (such variables displace the text that ifeval takes from them).", "quantifier": "every document, set of files, environment and node at any depth", "why_tests_cant": "all documents, unbounded depth", "anchors": ["mau/text_buffer.py: Context.merge_contexts", "mau/nodes/node.py: NodeInfo", "mau/parsers/text_parser.py", "mau/parsers/document_parser.py: finalise", "mau/parsers/document_processors/*.py", "mau/parsers/managers/*.py"]}
{"id": "C73", "title": "Errors point at the place they come from", "statement": "If a document (an included file, the content of a block) cannot be processed, the Mau error points at one of its lines, in the right file; an error of an included file is the error of processing that file, and so points there. An error in a line of text points at exactly that line. The only Mau error without a position is that about a footnote defined twice (it has one if the second definition is a source block with content). As in C72 no variable may have a value with a newline or an empty name.", "quantifier": "every document, set of files, environment and error", "why_tests_cant": "all documents and all ways to fail", "anchors": ["mau/parsers/base_parser.py: parse, create_parser_exception", "mau/parsers/preprocess_variables_parser.py", "mau/parsers/arguments_parser.py", "mau/parsers/condition_parser.py", "mau/parsers/text_parser.py", "mau/parsers/document_processors/*.py", "mau/parsers/managers/*.py", "mau/lexers/base_lexer.py: create_lexer_exception"]}
{"id": "C74", "title": "Errors of rendering point at the node", "statement": "If rendering a document with the Jinja visitor fails with a Mau error (and not already because a template provider is missing), the error names the class and the place (file, lines counted from 1, columns) of a node that has to be rendered for this document, and says what is true of that node: no template fits it under any configured prefix or without, or its best template uses something that is not defined. On the command line class and place are logged and the exit code is 1. If rendering succeeds, every node that has to be rendered was rendered with its best template: no node is silently left out.", "quantifier": "every node tree, set of templates, prefixes, table of references and behaviour of Jinja", "why_tests_cant": "unbounded trees, all sets of templates", "anchors": ["mau/visitors/jinja_visitor.py: JinjaVisitor.visit, visitlist, _find_matching_template, _render", "mau/visitors/base_visitor.py: create_visitor_exception", "mau/message.py: LogMessageHandler"]}
{"id": "C75", "title": "Engines of blocks", "statement": "The engine of a block decides how its content is read: default (or none given) as Mau text, raw, or source; any other engine is a Mau error that names it and points at the block, whatever the content. A block without content gives an empty block. The classes of a block are those written in the argument classes, separated by commas.", "quantifier": "every block with every engine name, content and classes", "why_tests_cant": "all names and contents", "anchors": ["mau/parsers/document_processors/block.py: block_processor, EngineType", "mau/parsers/document_processors/block_engines/default.py: parse_default_engine"]}
{"id": "C76", "title": "The nodes of a line lie side by side, at the columns of their characters", "statement": "The nodes of a line of inline text lie on that line, in order: the first starts where the text starts, each of the others starts where the one before it ends, and the last ends where the text ends. The characters between the start and the end of a node are those that it was made of: those of the text with its backslashes, the verbatim or dollar text with its delimiters, the style with its markers, the macro from its bracket to its parenthesis; the nodes in a style cover, in the same way, what stands between the markers, and the nodes in a macro, at every depth, stand over their own characters in the arguments of the macro, provided the arguments have no escaped characters, no names and no aliases (only the text of a link with neither text nor target has no place). (A control macro covers its columns, too, but may give any nodes or none; spaces at the end of the text are not covered, and nothing is said of a text that ends with a backslash followed by spaces.) In a document this holds for each line of a paragraph, for the text of a header and for the text of each list item, whenever no variable was replaced in it, with the columns counted from the beginning of the line of the document.", "quantifier": "every text, every position, every document", "why_tests_cant": "all texts; the columns are computed by merging token positions along every parse path", "anchors": ["mau/parsers/text_parser.py: _parse_sentence, _parse_word, _parse_backslash_escaped, _parse_verbatim, _parse_escaped, _parse_style, _parse_macro", "mau/lexers/text_lexer.py", "mau/token.py: Token.from_token_list", "mau/parsers/document_processors/header.py", "mau/parsers/document_processors/list.py", "mau/parsers/document_processors/paragraph.py"]}
{"id": "C77", "title": "What is written can be read back", "statement": "Every document made of headers, horizontal rules, (nested) lists, (nested) blocks and paragraphs of formatted text (plain text, verbatim text, styles in styles, links with formatted text, images, characters and raw text by macros, macros not defined by Mau, and formatted text with classes), raw blocks and blocks of source code (with a language, and markers and highlight styles of lines) and images, with comments (of one or several lines) between them, each part with any labels (of formatted text), arguments (with and without names), tags and a subtype, can be written in Mau: in the text written by the simple rules of the specification (a backslash before the characters with a meaning, an empty line between two parts) the parser finds exactly these parts with exactly these texts, labels, arguments, tags and subtypes, in this order and nothing else, in every environment and at every nesting depth. So no plain text and no combination of styles, links, lists and blocks is out of reach, and two documents written as the same text are the same. Excluded are: line breaks and empty pieces, spaces at the end of a line, backslashes in verbatim text, links in links, a style directly in itself, macros in links or in texts with classes, spaces around the latter, quotes, backslashes and backticks in the target of a link and, like closing brackets, in classes and the arguments of other macros, `#`, `*` or `@` at the start of these, and lines which are mistaken for something else (a line with plain text at the beginning is never, except for the text of two backslashes only); and arguments with the names Mau uses itself, backslashes or backticks in arguments, `#`, `*` or `@` at the start of one without a name, `*`, `@` or `mau:` at the start of a tag, `@` at the start of a subtype, spaces around an argument with a name, and in source code a `:` in markers and styles, `@` at the start of markers, the names that stand for other styles, and environments which change what these stand for, and arguments without name for an image without description or classes (they would be taken for these).", "quantifier": "every document of this kind: any texts, any number of parts, any depth; every environment", "why_tests_cant": "unbounded documents: all combinations of constructs and characters", "anchors": ["mau/lexers/document_lexer.py", "mau/lexers/text_lexer.py", "mau/parsers/document_parser.py", "mau/parsers/document_processors/{header,list,block,paragraph,horizontal_rule,arguments,label,include}.py", "mau/parsers/document_processors/block_engines/{default,raw,source}.py", "mau/parsers/text_parser.py", "mau/parsers/preprocess_variables_parser.py", "mau/parsers/arguments_parser.py"]}
{"id": "C78", "title": "A text means the same wherever it stands", "statement": "The line and column at which a text starts have no influence on anything but the lines and columns that are reported: a document (a file, or the content of a block at any depth), inline text and arguments read at one position give the same nodes, table of contents, includes, references and variables as at any other, or fail with the same error, up to line and column numbers. So blank lines and comments in front of a document, or more of them at a blank line inside (when what stands before can be read), change nothing but line numbers. The functions which give headers and footnotes their identities must not look at positions; Mau's own do not.", "quantifier": "every text, environment, set of files, start position, and any number of blank lines and comments", "why_tests_cant": "all texts and positions: a relation between two executions", "anchors": ["mau/text_buffer.py: Context, TextBuffer", "mau/lexers/*.py", "mau/parsers/*.py", "mau/parsers/document_processors/*.py", "mau/parsers/managers/*.py"]}
{"id": "C79", "title": "Where a text stands has no influence on what is rendered", "statement": "With templates that do not show line and column numbers, two documents that differ in positions only are rendered to the same text, or fail in the same way; the data of the base visitor differ in the numbers under `_context` only. So `Mau.process` returns the same text for a document and for the same document after blank lines and comments, or with more of them at a blank line inside (when what stands before can be read), and a document that starts at another line and column is rendered the same.", "quantifier": "every document, environment, set of files and templates, all parents, and any number of blank lines and comments", "why_tests_cant": "all documents: a relation between two runs of lexer, parser and visitor", "anchors": ["mau/visitors/base_visitor.py: BaseVisitor._get_node_data, _visit_*", "mau/visitors/jinja_visitor.py: JinjaVisitor.visit, visitlist, _render", "mau/nodes/node.py: accept", "mau/__init__.py: Mau.process"]}
{"id": "C80", "title": "The output of the base visitor shows the whole document", "statement": "If the base visitor returns the same data for two documents, then the documents are the same: every node at every depth has the same class, fields, arguments, tags, subtype, position, children and labels in the same order, and refers to the same header or footnote. The YAML visitor writes these data, so if `Mau.process` with the YAML visitor returns the same text for two inputs (and YAML text can be loaded again), the parser has found the same document in both. Nothing but identities, and what another part of the output shows, is hidden.", "quantifier": "every two documents, environments, recursion budgets and parents", "why_tests_cant": "all pairs of documents of any depth", "anchors": ["mau/visitors/base_visitor.py: BaseVisitor.process, visit, visitlist, visitdict, _visit_*", "mau/visitors/yaml_visitor.py: YamlVisitor._postprocess", "mau/nodes/node.py: accept", "mau/__init__.py: Mau.process"]}
{"id": "C81", "title": "What is written can be read in the output", "statement": "`Mau.process` with the YAML visitor loses nothing of a document: every document of the kind of the property `What is written can be read back`, written in Mau by the same rules, is processed without error and without message, and the text returned tells which document it was: if two such documents give the same text (and YAML text can be loaded again), they have the same parts with the same texts, styles, links, labels, arguments, tags and subtypes, in the same order, whatever the environments, files and source names are.", "quantifier": "every two documents of this kind, environments, configurations and names of files", "why_tests_cant": "unbounded documents, and pairs of them; the whole pipeline of lexer, parser and visitor", "anchors": ["mau/__init__.py: Mau.process", "mau/parsers/document_parser.py: DocumentParser.lex_and_parse", "mau/visitors/base_visitor.py: BaseVisitor.process", "mau/visitors/yaml_visitor.py: YamlVisitor", "mau/message.py"]}
