{
 "claims": [
  {
   "property": "C01",
   "status": "proved",
   "theorems": [
    "Mau.C01_merge_covers",
    "Mau.C01_merge_least",
    "Mau.C01_merge_idem",
    "Mau.C01_merge_assoc",
    "Mau.C01_merge_comm",
    "Mau.C01_adjust"
   ],
   "note": "Merging source positions covers both parts"
  },
  {
   "property": "C02",
   "status": "proved",
   "theorems": [
    "Mau.C02_join",
    "Mau.C02_joined",
    "Mau.C02_single",
    "Mau.C02_position"
   ],
   "note": "Splitting a text token into lines loses nothing"
  },
  {
   "property": "C03",
   "status": "proved",
   "theorems": [
    "Mau.C03_current_line",
    "Mau.C03_walk",
    "Mau.C03_eof",
    "Mau.C03_tail",
    "Mau.C03_eol",
    "Mau.C03_peek"
   ],
   "note": "The text buffer reports end of file exactly when no character is left"
  },
  {
   "property": "C04",
   "status": "proved",
   "theorems": [
    "Mau.C04_condition",
    "Mau.C04_text_total",
    "Mau.C04_arguments_total",
    "Mau.C04_preprocess_total"
   ],
   "note": "Inline lexers are total"
  },
  {
   "property": "C05",
   "status": "proved",
   "theorems": [
    "Mau.C05_total"
   ],
   "note": "The document lexer is total up to two documented errors"
  },
  {
   "property": "C06",
   "status": "proved",
   "theorems": [
    "Mau.C06_text_lossless",
    "Mau.C06_arguments_lossless",
    "Mau.C06_text_single_line",
    "Mau.C06_preprocess_lossless"
   ],
   "note": "Inline lexing is lossless"
  },
  {
   "property": "C07",
   "status": "proved",
   "theorems": [
    "Mau.C07_condition",
    "Mau.C07_document",
    "Mau.C07_text",
    "Mau.C07_arguments",
    "Mau.C07_preprocess"
   ],
   "note": "Token positions are accurate"
  },
  {
   "property": "C08",
   "status": "proved",
   "theorems": [
    "Mau.C08_line_comment",
    "Mau.C08_last_comment",
    "Mau.C08_multiline_comment"
   ],
   "note": "Comments leave no trace"
  },
  {
   "property": "C09",
   "status": "proved",
   "theorems": [
    "Mau.C09_block_verbatim"
   ],
   "note": "Block content is captured verbatim"
  },
  {
   "property": "C10",
   "status": "proved",
   "theorems": [
    "Mau.C10_alphabets",
    "Mau.C10_line_classified",
    "Mau.C10_forms_exclusive",
    "Mau.C10_pieces_give_line"
   ],
   "note": "Each document line becomes the construct its syntax says"
  },
  {
   "property": "C11",
   "status": "proved",
   "theorems": [
    "Mau.C11_condition",
    "Mau.C11_document",
    "Mau.C11_text",
    "Mau.C11_arguments",
    "Mau.C11_preprocess"
   ],
   "note": "Lexing is independent of where the text sits"
  },
  {
   "property": "C12",
   "status": "proved",
   "theorems": [
    "Mau.C12_failed_attempt",
    "Mau.C12_other_error",
    "Mau.C12_successful_attempt",
    "Mau.C12_peek",
    "Mau.C12_get"
   ],
   "note": "A failed parse attempt does not move the parser"
  },
  {
   "property": "C13",
   "status": "proved",
   "theorems": [
    "Mau.C13_collect",
    "Mau.C13_collect_total",
    "Mau.C13_collect_trailing"
   ],
   "note": "Collecting tokens stops at the first unescaped stop token"
  },
  {
   "property": "C14",
   "status": "proved",
   "theorems": [
    "Mau.C14_flat_round_trip",
    "Mau.C14_nested_round_trip"
   ],
   "note": "Flat and nested configuration are interchangeable"
  },
  {
   "property": "C15",
   "status": "proved",
   "theorems": [
    "Mau.C15_update",
    "Mau.C15_update_namespace",
    "Mau.C15_update_keep",
    "Mau.C15_update_namespace_keep",
    "Mau.C15_set",
    "Mau.C15_dupdate",
    "Mau.C15_distinct",
    "Mau.C15_history"
   ],
   "note": "Environment updates have the documented precedence"
  },
  {
   "property": "C16",
   "status": "proved",
   "theorems": [
    "Mau.C16_variable",
    "Mau.C16_default",
    "Mau.C16_namespace"
   ],
   "note": "Namespace lookup returns exactly the variables below the namespace"
  },
  {
   "property": "C17",
   "status": "proved",
   "theorems": [
    "Mau.C17_pieces",
    "Mau.C17_references",
    "Mau.C17_no_special",
    "Mau.C17_trailing_spaces"
   ],
   "note": "Variable substitution replaces exactly the variable references"
  },
  {
   "property": "C18",
   "status": "proved",
   "theorems": [
    "Mau.C18_backticks",
    "Mau.C18_backticks_plain"
   ],
   "note": "Text in backticks is exempt from substitution"
  },
  {
   "property": "C19",
   "status": "proved",
   "theorems": [
    "Mau.C19_undefined"
   ],
   "note": "References to undefined variables are reported"
  },
  {
   "property": "C20",
   "status": "proved",
   "theorems": [
    "Mau.C20_escape",
    "Mau.C20_double_braces"
   ],
   "note": "Escaped braces are literal"
  },
  {
   "property": "C21",
   "status": "proved",
   "theorems": [
    "Mau.C21_nothing_lost",
    "Mau.C21_visible_kept"
   ],
   "note": "Preprocessing does not lose characters"
  },
  {
   "property": "C22",
   "status": "proved",
   "theorems": [
    "Mau.C22_found",
    "Mau.C22_round_trip"
   ],
   "note": "Arguments round-trip"
  },
  {
   "property": "C23",
   "status": "proved",
   "theorems": [
    "Mau.C23_positional_after_named"
   ],
   "note": "Positional arguments cannot follow named ones"
  },
  {
   "property": "C24",
   "status": "proved",
   "theorems": [
    "Mau.C24_marks",
    "Mau.C24_internal_tags",
    "Mau.C24_text"
   ],
   "note": "Tags, subtype and alias are separated from plain arguments"
  },
  {
   "property": "C25",
   "status": "proved",
   "theorems": [
    "Mau.C25_text",
    "Mau.C25_unknown_text",
    "Mau.C25_alias",
    "Mau.C25_order_independent",
    "Mau.C25_unknown_alias"
   ],
   "note": "Aliases only fill in what is missing"
  },
  {
   "property": "C26",
   "status": "proved",
   "theorems": [
    "Mau.C26_set_names",
    "Mau.C26_nothing_lost"
   ],
   "note": "Naming positional arguments"
  },
  {
   "property": "C27",
   "status": "proved",
   "theorems": [
    "Mau.C27_reads",
    "Mau.C27_malformed",
    "Mau.C27_value",
    "Mau.C27_only",
    "Mau.C27_last_line",
    "Mau.C27_control_line"
   ],
   "note": "Conditions mean what they say"
  },
  {
   "property": "C28",
   "status": "proved",
   "theorems": [
    "Mau.C28_plain_text"
   ],
   "note": "Plain text stays plain text"
  },
  {
   "property": "C29",
   "status": "proved",
   "theorems": [
    "Mau.C29_escaping"
   ],
   "note": "Backslash escaping works for every text"
  },
  {
   "property": "C30",
   "status": "proved",
   "theorems": [
    "Mau.C30_verbatim",
    "Mau.C30_verbatim_escapes",
    "Mau.C30_literal",
    "Mau.C30_literal_escapes"
   ],
   "note": "Verbatim and dollar/percent spans are literal"
  },
  {
   "property": "C31",
   "status": "proved",
   "theorems": [
    "Mau.C31_lines",
    "Mau.C31_style",
    "Mau.C31_plain",
    "Mau.C31_unpaired"
   ],
   "note": "Style markers produce style nodes"
  },
  {
   "property": "C32",
   "status": "proved",
   "theorems": [
    "Mau.C32_ordinary_characters"
   ],
   "note": "The text parser loses no ordinary character"
  },
  {
   "property": "C33",
   "status": "proved",
   "theorems": [
    "Mau.C33_link",
    "Mau.C33_link_plain",
    "Mau.C33_mailto",
    "Mau.C33_mailto_plain",
    "Mau.C33_missing",
    "Mau.C33_link_written"
   ],
   "note": "Link macros"
  },
  {
   "property": "C34",
   "status": "proved",
   "theorems": [
    "Mau.C34_if",
    "Mau.C34_if_nothing",
    "Mau.C34_undefined",
    "Mau.C34_malformed",
    "Mau.C34_if_written"
   ],
   "note": "Conditional macro selects one branch"
  },
  {
   "property": "C35",
   "status": "partial",
   "theorems": [
    "Mau.C35_terminates_partial",
    "Mau.C35_plain_variables_partial",
    "Mau.C35_no_evaluation_partial",
    "Mau.C35_ifeval_endless",
    "Mau.C35_alias_endless"
   ],
   "note": "False as stated: a variable that contains an ifeval macro with its own name (C35_ifeval_endless) or an alias whose arguments use the alias (C35_alias_endless) recurses forever. Proved for tame texts (the relation 'its value may be evaluated' is well-founded), in particular for every text when no variable contains a bracket, and for every environment when the text uses neither ifeval nor aliases."
  },
  {
   "property": "C36",
   "status": "partial",
   "theorems": [
    "Mau.C36_value",
    "Mau.C36_bad_value",
    "Mau.C36_flag_partial",
    "Mau.C36_no_value_partial",
    "Mau.C36_empty_value",
    "Mau.C36_flag_swallows",
    "Mau.C36_value_swallows",
    "Mau.C36_swallows"
   ],
   "note": "False as stated: a definition without value swallows a text line that follows directly (theorem C36_swallows). Proved: value definitions (C36_value) in full, errors, and flag definitions when no ordinary text line follows directly."
  },
  {
   "property": "C37",
   "status": "proved",
   "theorems": [
    "Mau.C37_attach",
    "Mau.C37_line",
    "Mau.C37_nothing"
   ],
   "note": "Arguments and labels attach to the next node only"
  },
  {
   "property": "C38",
   "status": "partial",
   "theorems": [
    "Mau.C38_control_partial",
    "Mau.C38_uncontrolled",
    "Mau.C38_diverted",
    "Mau.C38_leak"
   ],
   "note": "False as stated: a block that is a footnote or the member of a group ignores its control and leaves it pending (C38_leak, C38_diverted). Proved for every other construct."
  },
  {
   "property": "C39",
   "status": "proved",
   "theorems": [
    "Mau.C39_list",
    "Mau.C39_lines"
   ],
   "note": "Lists keep every item, in order, at its level"
  },
  {
   "property": "C40",
   "status": "partial",
   "theorems": [
    "Mau.C40_start",
    "Mau.C40_continues_partial",
    "Mau.C40_counts_nested",
    "Mau.C40_counts_bullets",
    "Mau.C40_first_auto"
   ],
   "note": "False as stated: nested lists count as items (C40_counts_nested), unnumbered lists count too (C40_counts_bullets), and start=auto before the first list gives 0 (C40_first_auto). Proved: default start 1, explicit start N, and what auto continues from for every sequence of lists."
  },
  {
   "property": "C41",
   "status": "proved",
   "theorems": [
    "Mau.C41_raw",
    "Mau.C41_lines",
    "Mau.C41_join"
   ],
   "note": "Raw blocks preserve their content"
  },
  {
   "property": "C42",
   "status": "partial",
   "theorems": [
    "Mau.C42_line",
    "Mau.C42_line_any",
    "Mau.C42_line_total",
    "Mau.C42_source_partial",
    "Mau.C42_any_partial",
    "Mau.C42_empty",
    "Mau.C42_line_unique",
    "Mau.C42_long_delimiter",
    "Mau.C42_long_prefix"
   ],
   "note": "False as stated for delimiters or highlight prefixes of several characters (C42_long_delimiter, C42_long_prefix). Proved in full for a one-character delimiter and prefix; for delimiters and prefixes of any length it is proved how the lines are cut (C42_any_partial), and that every line is accepted (C42_line_total)."
  },
  {
   "property": "C43",
   "status": "proved",
   "theorems": [
    "Mau.C43_outline",
    "Mau.C43_document",
    "Mau.C43_output"
   ],
   "note": "The table of contents is the header outline"
  },
  {
   "property": "C44",
   "status": "proved",
   "theorems": [
    "Mau.C44_every",
    "Mau.C44_ids",
    "Mau.C44_default",
    "Mau.C44_chars",
    "Mau.C44_clash"
   ],
   "note": "Header ids"
  },
  {
   "property": "C45",
   "status": "proved",
   "theorems": [
    "Mau.C45_footnotes",
    "Mau.C45_names",
    "Mau.C45_undefined",
    "Mau.C45_duplicate",
    "Mau.C45_override"
   ],
   "note": "Footnotes are numbered by definition and linked by name"
  },
  {
   "property": "C46",
   "status": "proved",
   "theorems": [
    "Mau.C46_unknown",
    "Mau.C46_duplicate",
    "Mau.C46_links"
   ],
   "note": "Header links resolve to the header of that name"
  },
  {
   "property": "C47",
   "status": "proved",
   "theorems": [
    "Mau.C47_unknown",
    "Mau.C47_taken",
    "Mau.C47_groups"
   ],
   "note": "Block groups collect their blocks"
  },
  {
   "property": "C48",
   "status": "proved",
   "theorems": [
    "Mau.C48_isolated",
    "Mau.C48_not_isolated",
    "Mau.C48_document"
   ],
   "note": "Blocks are isolated unless requested"
  },
  {
   "property": "C49",
   "status": "partial",
   "theorems": [
    "Mau.C49_calls_partial",
    "Mau.C49_distinct_partial",
    "Mau.C49_rejected",
    "Mau.C49_blocks_recurse"
   ],
   "note": "False as stated: two files that include each other inside blocks recurse forever (C49_blocks_recurse). Proved: every include made outside blocks is of a file not seen before, and an include of a file already seen (or of the file itself) is a Mau error."
  },
  {
   "property": "C50",
   "status": "proved",
   "theorems": [
    "Mau.C50_defaults",
    "Mau.C50_variables",
    "Mau.C50_after",
    "Mau.C50_namespace_crash",
    "Mau.C50_namespace_lost"
   ],
   "note": "Included files cannot change the includer's variables"
  },
  {
   "property": "C51",
   "status": "partial",
   "theorems": [
    "Mau.C51_empty_condition_crash",
    "Mau.C51_paragraph_crash",
    "Mau.C51_nothing_left_crash",
    "Mau.C51_start_crash",
    "Mau.C51_group_crash",
    "Mau.C51_delimiter_crash",
    "Mau.C51_unreadable_crash",
    "Mau.C51_namespace_crash",
    "Mau.C51_eval_crash",
    "Mau.C51_wrapper_crash",
    "Mau.C51_text_partial",
    "Mau.C51_simple_text_partial",
    "Mau.C51_document_partial",
    "Mau.C51_result_partial",
    "Mau.C51_render_crash"
   ],
   "note": "False as stated: C51_*_crash are documents that raise AttributeError, IndexError, KeyError, OSError, TypeError or ValueError. Proved: texts without empty conditions, aliases and ifeval of a name that is not a string are parsed or rejected with a Mau error; and every document of a grammar of well-formed documents (Sound: all constructs, with blocks and included files, without the forms that crash) ends in a document or a Mau error."
  },
  {
   "property": "C52",
   "status": "proved",
   "theorems": [
    "Mau.C52_best",
    "Mau.C52_fits",
    "Mau.C52_none"
   ],
   "note": "The most specific template wins"
  },
  {
   "property": "C53",
   "status": "proved",
   "theorems": [
    "Mau.C53_claims",
    "Mau.C53_no_type"
   ],
   "note": "Template names encode their claims"
  },
  {
   "property": "C54",
   "status": "proved",
   "theorems": [
    "Mau.C54_place",
    "Mau.C54_fields",
    "Mau.C54_children",
    "Mau.C54_labels",
    "Mau.C54_reference",
    "Mau.C54_jinja_data",
    "Mau.C54_jinja",
    "Mau.C54_total",
    "Mau.C54_cycle"
   ],
   "note": "Visiting preserves the document structure"
  },
  {
   "property": "C55",
   "status": "proved",
   "theorems": [
    "Mau.C55_equal",
    "Mau.C55_fresh"
   ],
   "note": "Copying a node gives an equal node"
  },
  {
   "property": "C56",
   "status": "proved",
   "theorems": [
    "Mau.C56_variables",
    "Mau.C56_malformed",
    "Mau.C56_file_names",
    "Mau.C56_files",
    "Mau.C56_unreadable"
   ],
   "note": "Command line variables and files land in their namespace"
  },
  {
   "property": "C57",
   "status": "partial",
   "theorems": [
    "Mau.C57_default_partial",
    "Mau.C57_exactly",
    "Mau.C57_overwrites",
    "Mau.C57_elsewhere",
    "Mau.C57_explicit"
   ],
   "note": "False for input files whose path does not contain .mau (C57_overwrites: the input file is overwritten) or whose directory contains .mau (C57_elsewhere: written to another directory). Proved for STEM.mau."
  },
  {
   "property": "C58",
   "status": "proved",
   "theorems": [
    "Mau.C58_paragraph",
    "Mau.C58_parsed",
    "Mau.C58_document"
   ],
   "note": "Paragraphs keep their lines"
  },
  {
   "property": "C59",
   "status": "proved",
   "theorems": [
    "Mau.C59_header",
    "Mau.C59_parsed"
   ],
   "note": "Headers keep their level and text"
  },
  {
   "property": "C60",
   "status": "proved",
   "theorems": [
    "Mau.C60_append_only",
    "Mau.C60_order",
    "Mau.C60_construct"
   ],
   "note": "Document nodes come out in source order"
  },
  {
   "property": "C61",
   "status": "proved",
   "theorems": [
    "Mau.C61_no_output",
    "Mau.C61_output",
    "Mau.C61_exit"
   ],
   "note": "A failed run writes no output"
  },
  {
   "property": "C62",
   "status": "proved",
   "theorems": [
    "Mau.C62_complete",
    "Mau.C62_resolves",
    "Mau.C62_unique"
   ],
   "note": "Every reference in the output resolves"
  },
  {
   "property": "C63",
   "status": "proved",
   "theorems": [
    "Mau.C63_keeps"
   ],
   "note": "Completing the document keeps its nodes"
  },
  {
   "property": "C64",
   "status": "partial",
   "theorems": [
    "Mau.C64_collected_partial",
    "Mau.C64_paragraph_partial",
    "Mau.C64_header_partial",
    "Mau.C64_list_partial",
    "Mau.C64_label_partial",
    "Mau.C64_lost",
    "Mau.C64_document_partial",
    "Mau.C64_text_partial"
   ],
   "note": "False as stated: mentions and links inside the text of another macro or in a case of a control macro are not collected and stay without target, silently (C64_lost). Proved for mentions in the text itself or inside styles, in lines without control macros (C64_collected_partial, C64_paragraph_partial), and for whole documents: in every document in which no opening bracket can begin a control macro (on its lines or in the values of variables given from outside), every mention and link reached through paragraphs, headers, lists, labels, blocks, groups of blocks and styles, nested in any way, has the footnote or header of its name (C64_document_partial)."
  },
  {
   "property": "C65",
   "status": "partial",
   "theorems": [
    "Mau.C65_loopless_partial",
    "Mau.C65_no_includes_partial",
    "Mau.C65_endless"
   ],
   "note": "False as stated: two files that include each other inside blocks are processed without end (C65_endless). Proved for documents without parentheses in variables (C65_no_includes_partial: no includes of Mau files, blocks of any depth; C65_loopless_partial: Mau files included outside blocks, finitely many readable files)."
  },
  {
   "property": "C66",
   "status": "proved",
   "theorems": [
    "Mau.C66_class",
    "Mau.C66_image",
    "Mau.C66_unicode",
    "Mau.C66_raw",
    "Mau.C66_footnote",
    "Mau.C66_header",
    "Mau.C66_other",
    "Mau.C66_missing",
    "Mau.C66_inner_error"
   ],
   "note": "The other macros keep what they are given"
  },
  {
   "property": "C67",
   "status": "proved",
   "theorems": [
    "Mau.C67_ifeval",
    "Mau.C67_undefined",
    "Mau.C67_nothing",
    "Mau.C67_condition_undefined",
    "Mau.C67_value_error",
    "Mau.C67_operator"
   ],
   "note": "The macro ifeval evaluates the selected variable"
  },
  {
   "property": "C68",
   "status": "proved",
   "theorems": [
    "Mau.C68_image",
    "Mau.C68_raw",
    "Mau.C68_other",
    "Mau.C68_no_address",
    "Mau.C68_no_file",
    "Mau.C68_both"
   ],
   "note": "Includes of images, raw files and other types"
  },
  {
   "property": "C69",
   "status": "proved",
   "theorems": [
    "Mau.C69_directory",
    "Mau.C69_precedence",
    "Mau.C69_visitor",
    "Mau.C69_unknown_provider",
    "Mau.C69_missing_directory"
   ],
   "note": "The strongest source of templates wins"
  },
  {
   "property": "C70",
   "status": "proved",
   "theorems": [
    "Mau.C70_failure",
    "Mau.C70_success",
    "Mau.C70_command",
    "Mau.C70_quiet"
   ],
   "note": "Every failure is reported once"
  },
  {
   "property": "C71",
   "status": "proved",
   "theorems": [
    "Mau.C71_untouched",
    "Mau.C71_until_redefined",
    "Mau.C71_visitor"
   ],
   "note": "Variables change only where the document says so"
  },
  {
   "property": "C72",
   "status": "proved",
   "theorems": [
    "Mau.C72_places",
    "Mau.C72_exact",
    "Mau.C72_document",
    "Mau.C72_line",
    "Mau.C72_disturbed"
   ],
   "note": "Nodes are where they were read"
  },
  {
   "property": "C73",
   "status": "proved",
   "theorems": [
    "Mau.C73_blames",
    "Mau.C73_document",
    "Mau.C73_alone",
    "Mau.C73_line",
    "Mau.C73_footnote"
   ],
   "note": "Errors point at the place they come from"
  },
  {
   "property": "C74",
   "status": "proved",
   "theorems": [
    "Mau.C74_error",
    "Mau.C74_success",
    "Mau.C74_document",
    "Mau.C74_command"
   ],
   "note": "Errors of rendering point at the node"
  },
  {
   "property": "C75",
   "status": "proved",
   "theorems": [
    "Mau.C75_empty",
    "Mau.C75_unknown",
    "Mau.C75_known"
   ],
   "note": "Engines of blocks"
  },
  {
   "property": "C76",
   "status": "proved",
   "theorems": [
    "Mau.C76_line",
    "Mau.C76_side_by_side",
    "Mau.C76_everywhere",
    "Mau.C76_header",
    "Mau.C76_paragraph",
    "Mau.C76_list"
   ],
   "note": "The nodes of a line lie side by side, at the columns of their characters"
  },
  {
   "property": "C77",
   "status": "proved",
   "theorems": [
    "Mau.C77_document",
    "Mau.C77_styles",
    "Mau.C77_faithful",
    "Mau.C77_text_line",
    "Mau.C77_other_line"
   ],
   "note": "What is written can be read back"
  },
  {
   "property": "C78",
   "status": "proved",
   "theorems": [
    "Mau.C78_document",
    "Mau.C78_text",
    "Mau.C78_arguments",
    "Mau.C78_blank_lines",
    "Mau.C78_more_space",
    "Mau.C78_default_ids"
   ],
   "note": "A text means the same wherever it stands"
  },
  {
   "property": "C79",
   "status": "proved",
   "theorems": [
    "Mau.C79_data",
    "Mau.C79_rendered",
    "Mau.C79_moved",
    "Mau.C79_blank_lines",
    "Mau.C79_more_space"
   ],
   "note": "Where a text stands has no influence on what is rendered"
  },
  {
   "property": "C80",
   "status": "proved",
   "theorems": [
    "Mau.C80_node",
    "Mau.C80_document",
    "Mau.C80_yaml",
    "Mau.C80_process"
   ],
   "note": "The output of the base visitor shows the whole document"
  },
  {
   "property": "C81",
   "status": "proved",
   "theorems": [
    "Mau.C81_rendered",
    "Mau.C81_faithful"
   ],
   "note": "What is written can be read in the output"
  }
 ]
}