{
 "C36": {
  "status": "partial",
  "note": "False as stated: a definition without value swallows a text line that follows directly (theorem C36_swallows). Proved: value definitions (C36_value) in full, errors, and flag definitions when no ordinary text line follows directly."
 },
 "C38": {
  "status": "partial",
  "note": "False as stated: a block that is a footnote or the member of a group ignores its control and leaves it pending (C38_leak, C38_diverted). Proved for every other construct."
 },
 "C40": {
  "status": "partial",
  "note": "False as stated: nested lists count as items (C40_counts_nested), unnumbered lists count too (C40_counts_bullets), and start=auto before the first list gives 0 (C40_first_auto). Proved: default start 1, explicit start N, and what auto continues from for every sequence of lists."
 },
 "C42": {
  "status": "partial",
  "note": "False as stated for delimiters or highlight prefixes of several characters (C42_long_delimiter, C42_long_prefix). Proved in full for a one-character delimiter and prefix; for delimiters and prefixes of any length it is proved how the lines are cut (C42_any_partial), and that every line is accepted (C42_line_total)."
 },
 "C57": {
  "status": "partial",
  "note": "False for input files whose path does not contain .mau (C57_overwrites: the input file is overwritten) or whose directory contains .mau (C57_elsewhere: written to another directory). Proved for STEM.mau."
 },
 "C64": {
  "status": "partial",
  "note": "False as stated: mentions and links inside the text of another macro or in a case of a control macro are not collected and stay without target, silently (C64_lost). Proved for mentions in the text itself or inside styles, in lines without control macros (C64_collected_partial, C64_paragraph_partial), and for whole documents: in every document in which no opening bracket can begin a control macro (on its lines or in the values of variables given from outside), every mention and link reached through paragraphs, headers, lists, labels, blocks, groups of blocks and styles, nested in any way, has the footnote or header of its name (C64_document_partial)."
 },
 "C49": {
  "status": "partial",
  "note": "False as stated: two files that include each other inside blocks recurse forever (C49_blocks_recurse). Proved: every include made outside blocks is of a file not seen before, and an include of a file already seen (or of the file itself) is a Mau error."
 },
 "C35": {
  "status": "partial",
  "note": "False as stated: a variable that contains an ifeval macro with its own name (C35_ifeval_endless) or an alias whose arguments use the alias (C35_alias_endless) recurses forever. Proved for tame texts (the relation 'its value may be evaluated' is well-founded), in particular for every text when no variable contains a bracket, and for every environment when the text uses neither ifeval nor aliases."
 },
 "C51": {
  "status": "partial",
  "note": "False as stated: C51_*_crash are documents that raise AttributeError, IndexError, KeyError, OSError, TypeError or ValueError. Proved: texts without empty conditions, aliases and ifeval of a name that is not a string are parsed or rejected with a Mau error; and every document of a grammar of well-formed documents (Sound: all constructs, with blocks and included files, without the forms that crash) ends in a document or a Mau error."
 },
 "C65": {
  "status": "partial",
  "note": "False as stated: two files that include each other inside blocks are processed without end (C65_endless). Proved for documents without parentheses in variables (C65_no_includes_partial: no includes of Mau files, blocks of any depth; C65_loopless_partial: Mau files included outside blocks, finitely many readable files)."
 }
}