# Generates /verif/properties.jsonl (kept in the repo so that the list is easy to edit).
import json
P=[]
def p(title, statement, quantifier, why, *anchors):
    P.append(dict(id="C%02d"%(len(P)+1), title=title, statement=statement, quantifier=quantifier,
                  why_tests_cant=why, anchors=list(anchors)))

p("Merging source positions covers both parts",
  "Merging two source contexts gives the smallest context (line range and column range taken separately) that covers both, keeping the first one's source; merging is idempotent, associative, and commutative up to the source name. Shifting a context for display moves only the lines and leaves the original context unchanged.",
  "all pairs/triples of contexts with arbitrary line and column numbers", "positions are unbounded integers; a test samples a few",
  "mau/text_buffer.py: Context.merge_contexts, move_to, adjust_context, adjust_position")
p("Splitting a text token into lines loses nothing",
  "Splitting a text token into one token per line and joining the values with a newline gives the original value back; the i-th line token sits i lines below the token's start, on one line, with a column span equal to its length. Joining tokens concatenates their values, and the position of the joined token is the smallest that covers those of the first and of the last; joining a single token gives back its value and its position.",
  "every text value (any number of lines, any length) and every start position", "unbounded number of lines",
  "mau/token.py: Token.to_token_list, Token.from_token_list")
p("The text buffer reports end of file exactly when no character is left",
  "Walking a loaded text line by line visits exactly the lines of the text in order; the buffer is at EOF exactly when it is past the last line or at/after the end of the last line; reading properties never raises and returns the empty string beyond the end; `tail` is always current_char followed by the next tail.",
  "every text, every sequence of nextline/skip calls", "history of navigation calls is unbounded",
  "mau/text_buffer.py: TextBuffer")
p("Inline lexers are total",
  "The text, arguments and variable-preprocessing lexers terminate on every text (including multi-line text) and produce a token list that ends with exactly one EOF token; they never raise an error ('Cannot process token', 'Loop detected'). The condition lexer also terminates on every text; it gives such a token list exactly when every non-blank line is a condition, and otherwise reports the beginning of the first line that is not.",
  "every input text and every start position", "all strings", 
  "mau/lexers/base_lexer.py: process, _process", "mau/lexers/text_lexer.py", "mau/lexers/arguments_lexer.py", "mau/lexers/preprocess_variables_lexer.py", "mau/lexers/condition_lexer.py")
p("The document lexer is total up to two documented errors",
  "Lexing any document terminates; it either yields tokens ending with exactly one EOF or raises the lexer error 'Unclosed block.' or 'Unclosed multiline comment.', and the latter happen only when a delimiter line has no later closing line.",
  "every document text", "all documents",
  "mau/lexers/document_lexer.py", "mau/lexers/base_lexer.py")
p("Inline lexing is lossless",
  "For every single-line text the concatenated token values give back the text, except that a run of spaces at the very end may be dropped (always dropped by the text and arguments lexers unless the whole text is blank; dropped by the preprocess lexer only directly after a special character).",
  "every single-line text", "all strings",
  "mau/lexers/base_lexer.py: _process_trailing_spaces, _process_empty_line", "mau/lexers/text_lexer.py", "mau/lexers/arguments_lexer.py", "mau/lexers/preprocess_variables_lexer.py")
p("Token positions are accurate",
  "The context of every token produced by a lexer delimits exactly the characters of the source that form the token's value (start position inclusive, end exclusive, offset by the start line and - on the first line - the start column), for every lexer.",
  "every text, every token, every start offset", "all strings and all tokens in them",
  "mau/lexers/base_lexer.py: _create_token_and_skip", "mau/text_buffer.py: position", "mau/lexers/document_lexer.py")
p("Comments leave no trace",
  "A single-line comment (outside blocks), or a closed multi-line comment, adds no token: lexing a document with it gives the same token types and values as lexing the document without it.",
  "every document prefix/suffix and every comment content", "all documents and comment positions",
  "mau/lexers/document_lexer.py: _process_comment, _process_multiline_comment")
p("Block content is captured verbatim",
  "Whatever lines stand between a block delimiter and the next line equal to it - including comments, other delimiters, headers, blank lines - become one text token whose value is those lines joined by newlines; no content token exists when there are none.",
  "every delimiter and every list of content lines", "unbounded number of lines of arbitrary content",
  "mau/lexers/document_lexer.py: _process_block")
p("Each document line becomes the construct its syntax says",
  "A non-blank line outside blocks is turned into tokens by the first matching documented form (comment, rule, block delimiter, control, include, variable, arguments, label, list item, header, else text), and the token values together with the skipped spaces give the line back.",
  "every line", "all strings",
  "mau/lexers/document_lexer.py: _process_functions and all _process_* functions")
p("Lexing is independent of where the text sits",
  "Lexing a text with a start line and column yields the same token types and values as lexing it at the origin, with every context shifted by the start line, and by the start column on the first line only.",
  "every text and every start position", "all texts and offsets",
  "mau/lexers/base_lexer.py", "mau/text_buffer.py: TextBuffer.position, nextline")
p("A failed parse attempt does not move the parser",
  "Running a parse attempt inside the tokens manager's context leaves the position as it was if the attempt fails (the token error is swallowed, any other error propagates), and keeps the attempt's position if it succeeds; peeking never moves; getting a token advances by one and returns what peek would have returned.",
  "every token list, position and attempt", "all token lists and all nested attempts",
  "mau/parsers/managers/tokens_manager.py: __enter__, __exit__, peek_token, get_token")
p("Collecting tokens stops at the first unescaped stop token",
  "Collecting up to a set of stop tokens returns exactly the tokens before the first stop token (or EOF) that is not preceded by a backslash; a backslash before an ordinary token is kept with it, a backslash before a stop token is dropped unless preservation was requested.",
  "every token list and stop set", "all token lists",
  "mau/parsers/managers/tokens_manager.py: collect, collect_join")
p("Flat and nested configuration are interchangeable",
  "Converting an environment to a nested dictionary and back gives the same variables, whenever no variable name is a dotted prefix of another one and no name starts with a dot.",
  "every set of variables", "all key sets and nesting depths",
  "mau/environment/helpers.py: flatten_nested_dict, nest_flattened_dict", "mau/environment/environment.py: asdict, from_dict, from_environment")
p("Environment updates have the documented precedence",
  "After update(other) every variable of `other` (under the namespace, if any) has other's value and the remaining ones are unchanged; with overwrite=False existing variables win; setting a variable makes exactly that variable readable with the new value.",
  "every pair of environments, every history of updates", "unbounded histories",
  "mau/environment/environment.py: update, dupdate, __setitem__, __getitem__")
p("Namespace lookup returns exactly the variables below the namespace",
  "get(key) returns the variable when it exists; otherwise, when variables named key.x exist, an environment with exactly those variables under the names x; otherwise the default.",
  "every environment and key", "all key sets",
  "mau/environment/environment.py: get")
p("Variable substitution replaces exactly the variable references",
  "In a single-line text without backslashes and backticks, written as literal pieces and references {name} to defined variables, preprocessing returns the pieces unchanged with each reference replaced by the variable's value (inserted verbatim, not re-scanned); a text without special characters is returned unchanged. Only spaces at the very end directly after a special character are ignored.",
  "every text, every environment", "all texts and environments",
  "mau/parsers/preprocess_variables_parser.py", "mau/lexers/preprocess_variables_lexer.py")
p("Text in backticks is exempt from substitution",
  "Preprocessing a single-line text leaves a closed backtick span unchanged, whatever braces it contains and whatever self-contained text (plain text, escapes, references, other spans) stands around it.",
  "every span content", "all strings",
  "mau/parsers/preprocess_variables_parser.py: _process_verbatim")
p("References to undefined variables are reported",
  "If a reference {name} in a single-line text, preceded by self-contained text (plain text, escapes, references, closed spans), names an undefined variable, preprocessing raises a Mau parser error naming that variable whatever follows; it never yields output.",
  "every text with such a reference, every environment lacking the variable", "all texts and environments",
  "mau/parsers/preprocess_variables_parser.py: _process_curly")
p("Escaped braces are literal",
  "\\{ and \\} yield the braces themselves and {{text}} yields {text}, without any variable lookup; every other backslash pair is passed on unchanged to the text parser.",
  "every surrounding text", "all strings",
  "mau/parsers/preprocess_variables_parser.py: _process_escaped_char, _process_curly")
p("Preprocessing does not lose characters",
  "The preprocessor drops no visible character of a single-line text: whenever it succeeds, everything except braces of references, one pair of doubled braces and backslashes before braces reaches the output in order (spaces at the very end and a lone backslash at the very end may go).",
  "every text", "all strings",
  "mau/parsers/preprocess_variables_parser.py")
p("Arguments round-trip",
  "Writing a list of positional values followed by named values in the documented syntax (in quotes with inner quotes escaped, or bare where the value has no special characters), separated by commas and any number of spaces, and parsing it gives back exactly these values, in order. Values of named arguments are read without surrounding spaces; a value in quotes may contain backslashes unless one stands directly before a double quote.",
  "every list of values as above (positional ones not starting with the marks # * @) and every list of distinct keys", "unbounded number of arguments of arbitrary content",
  "mau/parsers/arguments_parser.py: _process_named_argument, _process_unnamed_argument", "mau/lexers/arguments_lexer.py")
p("Positional arguments cannot follow named ones",
  "Parsing arguments in which a positional argument follows a named one raises the Mau parser error 'Unnamed arguments after named arguments are forbidden.'; no result is produced.",
  "every argument list with that shape", "all argument lists",
  "mau/parsers/arguments_parser.py: _process_unnamed_argument")
p("Tags, subtype and alias are separated from plain arguments",
  "Positional arguments starting with # become tags (those starting with #mau: internal tags), the one starting with * the subtype, the one starting with @ the alias; all others stay positional in order; more than one subtype or alias is an error.",
  "every list of positional arguments, each with at most one mark", "all lists",
  "mau/parsers/arguments_parser.py: _isolate_by_prefix, _isolate_tags_and_subtype, arguments")
p("Aliases only fill in what is missing",
  "Expanding an alias never changes a named argument or subtype given explicitly; it adds exactly the missing ones, then names positional arguments; the resulting mapping does not depend on the iteration order of the set of missing keys. An alias is what the variables mau.parser.aliases.NAME.args.KEY, .names and .subtype define; an alias without settings is an error naming it.",
  "every alias definition, every argument list, every set iteration order", "hash-randomised set order, all definitions",
  "mau/parsers/arguments_parser.py: _isolate_tags_and_subtype")
p("Naming positional arguments",
  "Assigning names to positional arguments pairs the names not already used with the positional values in order; existing named values are untouched; surplus values stay positional; nothing is lost when there are as many or more values than free names, and nothing is invented.",
  "every list of values, mapping and list of distinct names", "all lists",
  "mau/nodes/node_arguments.py: set_names")
p("Conditions mean what they say",
  "A condition `variable == value` (any spaces around the comparison) is true exactly if the variable is defined with that string value, `!=` is its negation; an undefined variable is a Mau error; a non-string variable value is never equal. A condition text that spans several lines stands for the condition on its last line. In a control line references in the condition are replaced first, and an operator other than `if` is a Mau error.",
  "every variable name, value, environment", "all strings and environments",
  "mau/parsers/condition_parser.py", "mau/lexers/condition_lexer.py", "mau/parsers/buffers/control_buffer.py: Control.process")
p("Plain text stays plain text",
  "Parsing a single-line text without special characters yields one text node with exactly that text (trailing spaces removed).",
  "every such text", "all strings",
  "mau/parsers/text_parser.py: _parse_sentence, _parse_word", "mau/lexers/text_lexer.py")
p("Backslash escaping works for every text",
  "For any single-line text (not ending in a space), putting a backslash before every special character and running it through variable preprocessing and the text parser yields one text node with exactly the original text.",
  "every string", "all strings",
  "mau/parsers/text_parser.py: _parse_backslash_escaped", "mau/parsers/preprocess_variables_parser.py: _process_escaped_char", "mau/parsers/document_parser.py: _parse_text")
p("Verbatim and dollar/percent spans are literal",
  "A closed backtick span yields one verbatim node with exactly the enclosed text, a closed $..$ or %..% span a text node with exactly the enclosed text, whatever style markers, macros or brackets are inside (no backslash inside).",
  "every enclosed text", "all strings",
  "mau/parsers/text_parser.py: _parse_verbatim, _parse_escaped")
p("Style markers produce style nodes",
  "A plain text enclosed in a pair of style markers yields one style node of the corresponding kind containing that text; an unpaired marker is kept as literal text.",
  "every marker and text", "all strings",
  "mau/parsers/text_parser.py: _parse_style")
p("The text parser loses no ordinary character",
  "For every text without '[' the ordinary (non-special) characters of the parsed nodes, read in order, are exactly the ordinary characters of the text (trailing spaces of the line aside), however markers are nested or unbalanced.",
  "every text without '['", "all strings, all nestings of markers",
  "mau/parsers/text_parser.py")
p("Link macros",
  "[link](target, \"text\") yields a link node with that target and the parsed text as content, [link](target) uses the target as text, mailto adds the prefix; a missing target is a Mau error.",
  "all targets and texts", "all strings",
  "mau/parsers/text_parser.py: _parse_macro_link, _parse_macro_mailto")
p("Conditional macro selects one branch",
  "[if:VAR==VALUE](\"yes\",\"no\") yields the nodes of parsing `yes` if the condition holds and of `no` (nothing if absent) otherwise; the other branch has no effect. A condition on an undefined variable, or a text that is not a condition, is a Mau error that names it.",
  "all variables, values, environments, branch texts", "all strings",
  "mau/parsers/text_parser.py: _parse_macro_control")
p("Text parsing always terminates",
  "Parsing any text in any environment terminates (with nodes or an error).",
  "every text and environment", "non-termination cannot be observed by a test",
  "mau/parsers/text_parser.py: lex_and_parse recursion, _parse_macro_control")
p("Variable definitions",
  "`:name:value` defines exactly the variable `name` as the value with references substituted at definition time; `:+name:`/`:-name:` define \"true\"/\"false\"; a definition without value is an error; a definition affects only later text and consumes nothing but its own line.",
  "every name, value and following document", "all documents",
  "mau/parsers/document_processors/variable_definition.py")
p("Arguments and labels attach to the next node only",
  "Pending arguments and labels are attached to the next document node and are gone afterwards; of several argument lines the last wins, of several labels with one role the last wins; a node without pending ones gets none. Blank lines and variable definitions in between do not matter. References in a line of arguments are replaced before it is read.",
  "every sequence of attachments and nodes", "unbounded sequences",
  "mau/parsers/buffers/*.py", "mau/parsers/document_parser.py: pop_labels", "mau/parsers/document_processors/*.py")
p("A control condition decides on exactly the next node",
  "A node preceded by a control is kept if the condition holds and dropped otherwise (with its arguments and labels consumed); the following node is not affected. (For a block the condition is evaluated after its content has been read.)",
  "every node kind, condition and following document", "all documents",
  "mau/parsers/document_processors/*.py", "mau/parsers/buffers/control_buffer.py")
p("Lists keep every item, in order, at its level",
  "Parsing a run of list lines yields lists whose items, read depth-first, are exactly the lines' items in order with level = number of prefix symbols; items of one list have one level, a nested list is deeper than the items before it; ordered/unordered is decided by the first item's symbol.",
  "every sequence of levels and item texts", "unbounded length and depth",
  "mau/parsers/document_processors/list.py: _process_list_nodes, list_processor")
p("Automatic list numbering continues",
  "A list with start=auto starts at the number following the last item of the previous ordered list; a list with start=N starts at N, the default is 1.",
  "every sequence of lists", "unbounded sequences",
  "mau/parsers/document_processors/list.py: list_processor")
p("Raw blocks preserve their content",
  "A raw block yields one raw line per content line, in order, with unchanged text and the right source line; joining them gives the content back (content that is one empty line counts as no content).",
  "every content", "all texts",
  "mau/parsers/document_processors/block_engines/raw.py")
p("Source blocks preserve code and split markers",
  "A source block yields one code line per content line numbered 1..n; a line not ending with the delimiter is unchanged; for a line code+delimiter+label+delimiter the code is kept and the label becomes the marker, or the highlight style if it starts with the highlight prefix (aliases resolved, empty = default; an empty label gives no marker; content that is one empty line counts as no content).",
  "every content, delimiter and prefix", "all texts",
  "mau/parsers/document_processors/block_engines/source.py")
p("The table of contents is the header outline",
  "The nested table of contents contains every header exactly once in document order; each entry's children have a strictly greater level; the parent of a header is the nearest preceding header of smaller level.",
  "every sequence of header levels", "unbounded sequences",
  "mau/parsers/managers/toc_manager.py: add_nodes_under_level, TocManager.process")
p("Header ids",
  "After processing every header has an internal id; an id given explicitly is kept; the default id depends only on level and text, contains only lowercase letters, digits, dashes and dots; default ids clash only if level and text agree or the four digits taken from the digest collide.",
  "every list of headers", "all header texts",
  "mau/parsers/managers/toc_manager.py: default_header_internal_id, TocManager.process")
p("Footnotes are numbered by definition and linked by name",
  "Footnotes get public ids 1..n in order of definition; every collected mention is linked to the footnote of its name; a mention of an undefined footnote, or a second definition of a name in the same text, is a Mau error (a definition merged from a block with isolate=false replaces an earlier one); every footnote list contains all footnotes in that order.",
  "every sequence of definitions and mentions", "unbounded sequences",
  "mau/parsers/managers/footnotes_manager.py")
p("Header links resolve to the header of that name",
  "After processing, every collected header link refers to the header with its name and, if it had no text, carries a copy of the header's content; duplicate names and unknown targets are Mau errors.",
  "every sequence of headers and links", "unbounded sequences",
  "mau/parsers/managers/header_links_manager.py")
p("Block groups collect their blocks",
  "Each group node receives exactly the blocks of its group under their positions; a position can be taken only once per group; a group node for an unknown group is a Mau error; grouped blocks do not appear in the normal flow.",
  "every sequence of blocks and group nodes", "unbounded sequences",
  "mau/parsers/managers/blockgroup_manager.py", "mau/parsers/document_processors/block.py")
p("Blocks are isolated unless requested",
  "Headers and footnotes inside a block are not added to the enclosing document's table of contents and footnotes, unless the block has isolate=false, in which case all of them are.",
  "every block content and nesting", "all documents",
  "mau/parsers/document_processors/block_engines/default.py: parse_block_content")
p("Include loops are detected",
  "Processing a document whose files include each other recursively ends with a Mau error instead of recursing forever; a chain of includes never opens the same file twice.",
  "every set of files", "arbitrary include graphs",
  "mau/parsers/document_processors/include.py: _parse_mau", "mau/parsers/document_parser.py: forbidden_includes")
p("Included files cannot change the includer's variables",
  "An included file sees the includer's variables (or none with pass_environment=false) plus the call variables, and nothing it defines is visible afterwards in the including file. (Variable names that start with a dot, or one of which is a namespace of another, cannot be handed over.)",
  "every environment whose names can be handed over, and every included document", "all documents",
  "mau/parsers/document_processors/include.py: _parse_mau", "mau/environment/environment.py: from_environment")
p("Every failure is a Mau error",
  "Processing any document text either succeeds or raises a Mau exception (reported through the message handler), never a bare Python exception.",
  "every document", "all documents",
  "mau/__init__.py: Mau.run_parser", "mau/parsers/**")
p("The most specific template wins",
  "The template selected for a node matches all its claims, is found under the first configured prefix that has a match (unprefixed ones last), and has the greatest specificity among the matching templates of that prefix, earlier definitions winning ties; if none matches, a Mau error is raised.",
  "every set of templates, prefixes and node", "all template sets",
  "mau/visitors/jinja_visitor.py: Template.match, specificity, JinjaVisitor.__init__, _find_matching_template")
p("Template names encode their claims",
  "Building a template name from claims (type, subtype, prefix, parent type, parent subtype, tags, custom fields, in any order) and parsing it gives the claims back, for claims that can be written in a name (no dot or double underscore in them, no subtype that looks like another claim, at most one value per single claim); a name without type is rejected.",
  "every set of claims", "all strings",
  "mau/visitors/jinja_visitor.py: Template.from_name")
p("Visiting preserves the document structure",
  "The visitor output for a node lists the outputs of exactly its children in order and of its labels per role, with the node's type, arguments, tags and subtype, its place and its parent on request; the Jinja visitor joins the children with the separator of the node type. Visiting succeeds unless header references are cyclic.",
  "every node tree", "unbounded trees",
  "mau/visitors/base_visitor.py", "mau/visitors/jinja_visitor.py: visitlist")
p("Copying a node gives an equal node",
  "The deep copy of a node has the same type, fields, arguments, position and (recursively) children and labels, with the copied node as parent of the copied children, and shares no node with the original.",
  "every node tree", "unbounded trees",
  "mau/nodes/*.py: deepcopy")
p("Command line variables and files land in their namespace",
  "Each KEY=VALUE given on the command line is readable afterwards as mau.<namespace>.KEY with that value (last one wins), other variables are unchanged; one without exactly one equals sign raises; the values of environment files land under their key (or the stem of the file name), for keys that are not dotted prefixes of each other; an unreadable file raises.",
  "every list of variables", "all lists",
  "mau/__init__.py: load_environment_variables, load_environment_files")
p("The default output file is not the input file",
  "When no output file is given, the output is written next to the input under the visitor's extension and the input is never overwritten.",
  "every input file name", "all strings",
  "mau/cli.py: main, write_output")
p("Paragraphs keep their lines",
  "In an environment whose parser objects are the usual ones, a run of consecutive text lines yields one paragraph with one paragraph line per text line in order, each holding the parse of that line; a blank line ends the paragraph.",
  "every sequence of text lines", "unbounded sequences",
  "mau/parsers/document_processors/paragraph.py")
p("Headers keep their level and text",
  "A line of n equal signs followed by text yields a header of level n with the parse of the text, registered in the table of contents exactly if it is kept.",
  "every n and text", "unbounded levels, all texts",
  "mau/parsers/document_processors/header.py", "mau/lexers/document_lexer.py: _process_header")
p("Document nodes come out in source order",
  "The nodes of the document appear in the order of their source lines; processing the rest of a document never alters or removes nodes already produced (other than resolving links).",
  "every document", "all documents",
  "mau/parsers/base_parser.py: parse, _save", "mau/parsers/document_parser.py")
p("A failed run writes no output",
  "A run of the command line program either ends normally and then has written exactly the rendered document and a newline to the output file (or the standard output for -), or ends with an exit code or exception and has written nothing; Mau errors give exit code 1.",
  "every command line and every content of the files", "all documents and environments",
  "mau/cli.py: main, write_output")
p("Every reference in the output resolves",
  "After a successful parse every header, footnote or link reference held by a node of the document points to exactly one header or footnote of the document (one object per identity). Once all lines are read, the parse fails only because of an undefined footnote, header or group name.",
  "every document", "all documents",
  "mau/parsers/managers/*.py: process", "mau/parsers/document_parser.py: finalise")
p("Completing the document keeps its nodes",
  "The final step of parsing (footnotes, table of contents, links, groups) keeps the nodes of the document, their order, arguments and source positions; nodes that are not completed keep their class, and contain the completed nodes.",
  "every document", "all documents",
  "mau/parsers/document_parser.py: finalise", "mau/parsers/managers/*.py: process")
p("No mention or link is overlooked",
  "Every footnote mention and every header link written in the text of a document is collected, so that it is linked at the end or reported as undefined.",
  "every text", "all texts and nestings of styles and macros",
  "mau/parsers/text_parser.py: _parse_macro_footnote, _parse_macro_header, lex_and_parse", "mau/parsers/document_parser.py: _parse_text")
p("Processing a document always ends",
  "For every document, every set of readable files and every environment, processing ends: with a document or with an error.",
  "every document, set of files and environment", "unbounded nesting of blocks, includes and macros",
  "mau/parsers/base_parser.py: parse", "mau/parsers/document_processors/block.py", "mau/parsers/document_processors/include.py", "mau/parsers/text_parser.py")
p("The other macros keep what they are given",
  "The class macro keeps the parse of its text and its classes in order; image keeps the four values given; unicode and raw keep their value unparsed; footnote and header give a mention of that name (header with the parse of its text); a macro with another name keeps its name and arguments. A missing mandatory argument is a Mau error, and an error in the text of a macro is the error of the whole text.",
  "every macro, argument list and place in a line", "all texts and arguments",
  "mau/parsers/text_parser.py: _parse_macro_class, _parse_macro_image, _parse_macro_unicode, _parse_macro_raw, _parse_macro_footnote, _parse_macro_header_link")
p("The macro ifeval evaluates the selected variable",
  "[ifeval:VAR==VALUE](x, y) stands for the parse of the value of the variable named by the selected argument; an undefined variable, no argument to select, an undefined variable in the condition, and an unknown operator (if-something) are Mau errors.",
  "every condition, argument list and environment", "all texts and environments",
  "mau/parsers/text_parser.py: _parse_macro_control")
p("Includes of images, raw files and other types",
  "<< image gives one image node with exactly the address, description and classes given (by name or position); << raw gives one raw line per line of the file, which joined are the file; any other type keeps the type and arguments. Missing address, missing file, and arguments given both before and after the colon are Mau errors. The node stands on the line of the include.",
  "every include line, state of the parser and file", "all arguments and file contents",
  "mau/parsers/document_processors/include.py: _parse_image, _parse_raw, include_processor")
p("The strongest source of templates wins",
  "A Jinja visitor has exactly the templates of its sources: the default templates, the requested providers, every file with the template extension at any depth of the configured directories (named by its path with dots), and the configuration itself (where a text in the place of a list stands for the list of its characters). If several sources have a template of the same name, the later one in this order wins. Asking for a provider that is not installed is a Mau error naming it.",
  "every configuration, set of providers and directory tree without ambiguous names", "all directory trees and configurations",
  "mau/visitors/jinja_visitor.py: load_templates_from_providers, _load_templates_from_path, load_templates_from_filesystem, JinjaVisitor.__init__")
p("Every failure is reported once",
  "`Mau.process` fails exactly if lexing the text, parsing it or visiting the document fails, with the same exception; for a Mau exception the message handler gets its message once and nothing else, for other exceptions and on success it gets no error. On the command line a Mau error of any of the three steps is logged once, with its kind and its text, and the exit code is 1; a run that succeeds logs no error.",
  "every text, environment, visitor and command line", "all inputs and all ways to fail",
  "mau/__init__.py: Mau.run_lexer, Mau.run_parser, Mau.run_visitor, Mau.process", "mau/message.py: MauException, BaseMessageHandler.process, LogMessageHandler", "mau/cli.py: main")
p("Variables change only where the document says so",
  "A variable which no line of the document defines (`:k:value`, `:+k:`, `:-k:`, outside or inside of blocks) has after the processing the value given from outside, or else the built-in default, whatever else the document contains (included files, arguments, macros, lists, ...). A defined variable keeps its value until a line defines it again. The visitor, and so every template, works with the variables as the document leaves them.",
  "every document, environment and variable", "all documents",
  "mau/parsers/document_processors/variable_definition.py", "mau/parsers/document_parser.py: DocumentParser.__init__", "mau/environment/environment.py: update", "mau/__init__.py: Mau.process")
p("Nodes are where they were read",
  "Every node of a document records the file it was read from (the document, or the included file) and starts on a line of that file; the content of a node starts on the lines of the node, in the order of the document; the nodes of a line of text are on that line. For the nodes of inline text this needs that no variable has a value with a newline or an empty name (such variables displace the text that ifeval takes from them).",
  "every document, set of files, environment and node at any depth", "all documents, unbounded depth",
  "mau/text_buffer.py: Context.merge_contexts", "mau/nodes/node.py: NodeInfo", "mau/parsers/text_parser.py", "mau/parsers/document_parser.py: finalise", "mau/parsers/document_processors/*.py", "mau/parsers/managers/*.py")
p("Errors point at the place they come from",
  "If a document (an included file, the content of a block) cannot be processed, the Mau error points at one of its lines, in the right file; an error of an included file is the error of processing that file, and so points there. An error in a line of text points at exactly that line. The only Mau error without a position is that about a footnote defined twice (it has one if the second definition is a source block with content). As in C72 no variable may have a value with a newline or an empty name.",
  "every document, set of files, environment and error", "all documents and all ways to fail",
  "mau/parsers/base_parser.py: parse, create_parser_exception", "mau/parsers/preprocess_variables_parser.py", "mau/parsers/arguments_parser.py", "mau/parsers/condition_parser.py", "mau/parsers/text_parser.py", "mau/parsers/document_processors/*.py", "mau/parsers/managers/*.py", "mau/lexers/base_lexer.py: create_lexer_exception")
p("Errors of rendering point at the node",
  "If rendering a document with the Jinja visitor fails with a Mau error (and not already because a template provider is missing), the error names the class and the place (file, lines counted from 1, columns) of a node that has to be rendered for this document, and says what is true of that node: no template fits it under any configured prefix or without, or its best template uses something that is not defined. On the command line class and place are logged and the exit code is 1. If rendering succeeds, every node that has to be rendered was rendered with its best template: no node is silently left out.",
  "every node tree, set of templates, prefixes, table of references and behaviour of Jinja", "unbounded trees, all sets of templates",
  "mau/visitors/jinja_visitor.py: JinjaVisitor.visit, visitlist, _find_matching_template, _render", "mau/visitors/base_visitor.py: create_visitor_exception", "mau/message.py: LogMessageHandler")
p("Engines of blocks",
  "The engine of a block decides how its content is read: default (or none given) as Mau text, raw, or source; any other engine is a Mau error that names it and points at the block, whatever the content. A block without content gives an empty block. The classes of a block are those written in the argument classes, separated by commas.",
  "every block with every engine name, content and classes", "all names and contents",
  "mau/parsers/document_processors/block.py: block_processor, EngineType", "mau/parsers/document_processors/block_engines/default.py: parse_default_engine")
p("The nodes of a line lie side by side, at the columns of their characters",
  "The nodes of a line of inline text lie on that line, in order: the first starts where the text starts, each of the others starts where the one before it ends, and the last ends where the text ends. The characters between the start and the end of a node are those that it was made of: those of the text with its backslashes, the verbatim or dollar text with its delimiters, the style with its markers, the macro from its bracket to its parenthesis; the nodes in a style cover, in the same way, what stands between the markers, and the nodes in a macro, at every depth, stand over their own characters in the arguments of the macro, provided the arguments have no escaped characters, no names and no aliases (only the text of a link with neither text nor target has no place). (A control macro covers its columns, too, but may give any nodes or none; spaces at the end of the text are not covered, and nothing is said of a text that ends with a backslash followed by spaces.) In a document this holds for each line of a paragraph, for the text of a header and for the text of each list item, whenever no variable was replaced in it, with the columns counted from the beginning of the line of the document.",
  "every text, every position, every document", "all texts; the columns are computed by merging token positions along every parse path",
  "mau/parsers/text_parser.py: _parse_sentence, _parse_word, _parse_backslash_escaped, _parse_verbatim, _parse_escaped, _parse_style, _parse_macro", "mau/lexers/text_lexer.py", "mau/token.py: Token.from_token_list", "mau/parsers/document_processors/header.py", "mau/parsers/document_processors/list.py", "mau/parsers/document_processors/paragraph.py")
p("What is written can be read back",
  "Every document made of headers, horizontal rules, (nested) lists, (nested) blocks and paragraphs of formatted text (plain text, verbatim text, styles in styles, links with formatted text, images, characters and raw text by macros, macros not defined by Mau, and formatted text with classes), raw blocks and blocks of source code (with a language, and markers and highlight styles of lines) and images, with comments (of one or several lines) between them, each part with any labels (of formatted text), arguments (with and without names), tags and a subtype, can be written in Mau: in the text written by the simple rules of the specification (a backslash before the characters with a meaning, an empty line between two parts) the parser finds exactly these parts with exactly these texts, labels, arguments, tags and subtypes, in this order and nothing else, in every environment and at every nesting depth. So no plain text and no combination of styles, links, lists and blocks is out of reach, and two documents written as the same text are the same. Excluded are: line breaks and empty pieces, spaces at the end of a line, backslashes in verbatim text, links in links, a style directly in itself, macros in links or in texts with classes, spaces around the latter, quotes, backslashes and backticks in the target of a link and, like closing brackets, in classes and the arguments of other macros, `#`, `*` or `@` at the start of these, and lines which are mistaken for something else (a line with plain text at the beginning is never, except for the text of two backslashes only); and arguments with the names Mau uses itself, backslashes or backticks in arguments, `#`, `*` or `@` at the start of one without a name, `*`, `@` or `mau:` at the start of a tag, `@` at the start of a subtype, spaces around an argument with a name, and in source code a `:` in markers and styles, `@` at the start of markers, the names that stand for other styles, and environments which change what these stand for, and arguments without name for an image without description or classes (they would be taken for these).",
  "every document of this kind: any texts, any number of parts, any depth; every environment", "unbounded documents: all combinations of constructs and characters",
  "mau/lexers/document_lexer.py", "mau/lexers/text_lexer.py", "mau/parsers/document_parser.py", "mau/parsers/document_processors/{header,list,block,paragraph,horizontal_rule,arguments,label,include}.py", "mau/parsers/document_processors/block_engines/{default,raw,source}.py", "mau/parsers/text_parser.py", "mau/parsers/preprocess_variables_parser.py", "mau/parsers/arguments_parser.py")
p("A text means the same wherever it stands",
  "The line and column at which a text starts have no influence on anything but the lines and columns that are reported: a document (a file, or the content of a block at any depth), inline text and arguments read at one position give the same nodes, table of contents, includes, references and variables as at any other, or fail with the same error, up to line and column numbers. So blank lines and comments in front of a document, or more of them at a blank line inside (when what stands before can be read), change nothing but line numbers. The functions which give headers and footnotes their identities must not look at positions; Mau's own do not.",
  "every text, environment, set of files, start position, and any number of blank lines and comments", "all texts and positions: a relation between two executions",
  "mau/text_buffer.py: Context, TextBuffer", "mau/lexers/*.py", "mau/parsers/*.py", "mau/parsers/document_processors/*.py", "mau/parsers/managers/*.py")
p("Where a text stands has no influence on what is rendered",
  "With templates that do not show line and column numbers, two documents that differ in positions only are rendered to the same text, or fail in the same way; the data of the base visitor differ in the numbers under `_context` only. So `Mau.process` returns the same text for a document and for the same document after blank lines and comments, or with more of them at a blank line inside (when what stands before can be read), and a document that starts at another line and column is rendered the same.",
  "every document, environment, set of files and templates, all parents, and any number of blank lines and comments", "all documents: a relation between two runs of lexer, parser and visitor",
  "mau/visitors/base_visitor.py: BaseVisitor._get_node_data, _visit_*", "mau/visitors/jinja_visitor.py: JinjaVisitor.visit, visitlist, _render", "mau/nodes/node.py: accept", "mau/__init__.py: Mau.process")
p("The output of the base visitor shows the whole document",
  "If the base visitor returns the same data for two documents, then the documents are the same: every node at every depth has the same class, fields, arguments, tags, subtype, position, children and labels in the same order, and refers to the same header or footnote. The YAML visitor writes these data, so if `Mau.process` with the YAML visitor returns the same text for two inputs (and YAML text can be loaded again), the parser has found the same document in both. Nothing but identities, and what another part of the output shows, is hidden.",
  "every two documents, environments, recursion budgets and parents", "all pairs of documents of any depth",
  "mau/visitors/base_visitor.py: BaseVisitor.process, visit, visitlist, visitdict, _visit_*", "mau/visitors/yaml_visitor.py: YamlVisitor._postprocess", "mau/nodes/node.py: accept", "mau/__init__.py: Mau.process")
p("What is written can be read in the output",
  "`Mau.process` with the YAML visitor loses nothing of a document: every document of the kind of the property `What is written can be read back`, written in Mau by the same rules, is processed without error and without message, and the text returned tells which document it was: if two such documents give the same text (and YAML text can be loaded again), they have the same parts with the same texts, styles, links, labels, arguments, tags and subtypes, in the same order, whatever the environments, files and source names are.",
  "every two documents of this kind, environments, configurations and names of files", "unbounded documents, and pairs of them; the whole pipeline of lexer, parser and visitor",
  "mau/__init__.py: Mau.process", "mau/parsers/document_parser.py: DocumentParser.lex_and_parse", "mau/visitors/base_visitor.py: BaseVisitor.process", "mau/visitors/yaml_visitor.py: YamlVisitor", "mau/message.py")
with open("/verif/properties.jsonl","w") as f:
    for x in P: f.write(json.dumps(x)+"\n")
print(len(P))
