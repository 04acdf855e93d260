# Formal model of rustextile: design

The subject is `kpot/rustextile` (source in `/repo`), a converter from Textile
markup to HTML.  This directory contains a model of the converter in Lean 4
(`lean/`), theorems about it, and the list of properties they address
(`properties.jsonl`, `MANIFEST.json`).

## The model

The converter is one pipeline (`Textile::parse`) made of about forty functions, most
of which rewrite the text with regular expressions and set pieces aside in a per-call
state.  The model follows the source function by function; every definition cites the
lines it models.

| Lean module (`lean/Verif/`) | models |
|---|---|
| `Base` | the `str` and map functions of the standard library used by the crate; panics |
| `Regex` | the external `fancy_regex` engine: backtracking matcher, `captures_iter`, `replace_all`, templates; `split_with_capture` |
| `RegexParse` | the syntax of regular expressions, so that patterns are quoted verbatim from the source |
| `Patterns` | every pattern of the crate (`regex_snips.rs` and the `lazy_regex!`/`Regex::new` calls of the other files) |
| `HtmlTools` | `htmltools.rs` |
| `Attrs` | `block.rs`: attributes, `BlockAttributes::parse` |
| `Url` | `urlutils.rs` |
| `CharCounter` | `charcounter.rs` |
| `Split` | the iterator of `regextra.rs` |
| `State` | `ParserState`, the configuration, the effects of the parser |
| `Parser` | `parser.rs`, `table.rs`, the rest of `block.rs` |
| `Api` | `Textile`, its setters, `parse`, the regex cache, sequences of calls, the image probe |

Functions taking `&mut self` become programs (`Prog`): trees whose nodes are the
elementary effects of the crate (set a text aside, allocate a number, fetch a compiled
pattern, …).  `run` executes a program and yields a value, a panic (`Err.panic`) or
`Err.diverge`, which means that a loop of the code was still running when the fuel given
to the model ran out.  Loops that are bounded by their input in an obvious way are
structural recursions; the others (`retrieve`, `replace_links`, `mark_start_of_links`,
the recursion `graf` → `table`/`redcloth_list` → `graf` and `span` → `span`) take fuel.
A theorem about a returned value holds for every fuel.  Theorems that say that a value is
returned ask for fuel above a stated bound.

External behaviour is a parameter (`Env`): Unicode tables, lower-casing outside ASCII, the
`url` crate (parse and join), the image size found behind a URL.  The sanitizer is a
parameter of the configuration.  Theorems hold for all values of these parameters.  Facts
they need about Unicode are explicit hypotheses (`UniOk`: how ASCII characters are
classified, that white space is not alphanumeric); `UniOk.demo` shows that they can be met.

### Where the model is simpler than the code

* `u32` counters are natural numbers.  (`ol` start numbers, which come from the text, are
  bounded as in the code.)
* The backtrack limit and the stack of `fancy_regex` are not modelled.
* A repetition `r*` in the matcher is bounded by the length of the remaining text.
  `PatternsCheck` proves that the bound is never active for the patterns of the crate
  (`patterns_star_nonnull`, `star_unbounded`) and that every look-behind has the fixed
  length the matcher assumes (`patterns_behind_fixed`).
* Case-insensitive matching folds ASCII letters, the Kelvin sign and the long s.
* The token is matched literally; the code inserts it into patterns without escaping.  The
  same for a token without metacharacters, such as the default one.
* Effects carry annotations (for instance, that a text set aside is the tag of a link).
  Execution does not look at them; C27, C28 and C32 use them to speak about the tags a run
  generates.
* `unescape` is modelled for decimal references `&#n;`, the only texts the crate applies it
  to (parser.rs:269).  Its table of named references, `html.rs`, is therefore not modelled.
* Not modelled: `lib.rs` re-exports, logging, `Debug` and `Display` of errors, tests.

## The proofs

| Modules | content |
|---|---|
| `Spec` | what the theorems compare the model with; no imports, only characters, lists and numbers |
| `PatternsCheck` | the kernel repeats the parsing of every pattern; side conditions of the matcher |
| `RegexLemmas`, `RegexSimp`, `RegexStar`, `RegexLazy`, `RegexScan`, `RegexCaps`, `Lang`, `Inert` | theory of the matcher: all matches in order of preference, replacement by scanning, words an expression can match, texts in which it cannot match |
| `StrLemmas`, `ProgLemmas`, `Effects`, `EffectsSpan` | string functions; programs; invariants that follow from the elementary effects |
| `Quiet`, `Ordinary`, `Instances` | texts that contain no markup, and that `graf` leaves alone |
| `Paragraph`, `Rendered`, `TagBlock`, `BlockLemmas`, `BreakLemmas`, `Glue`, `Document`, `Phases`, `Steps`, `GrafRuns` | single blocks, documents, the phases before and after the block loop |
| `SpanRe`, `Mix`, `Tokens`, `InlineText`, `InlineBlock`, `InlineDoc` | inline markup |
| `Grow`, `Specials`, `Slots`, `InlineSource` | inline code and verbatim text: what is set aside, and how it is put back |
| `LinkRe`, `LinkStage` | links: the patterns, the stages that mark and replace them |
| `SpecAtts`, `AttrValues` | attributes of blocks described; what `BAttrs.parse` makes of them |
| `Act`, `TagAtts`, `SpecDocs`, `StyledBlock`, `StyledDoc`, `NodeDoc` | documents of blocks of any kind; block tags with attributes; C55 |
| `Auto`, `Starts`, `Weave`, `Body`, `SpecNotes`, `Footnote`, `FootnoteDoc` | footnotes: texts in which a pattern cannot match, by an automaton; texts between pieces of HTML; blocks that change the state; C56 |
| `SpecTables`, `TableRe`, `TableGraf`, `TableDoc` | tables described as rows of cells in sections; the table stage; C57 |
| `SpecSigns`, `SignRe`, `SignStages`, `SignGlyph`, `SignText`, `SignRun`, `SignDoc` | typographic signs: the text after each of the 22 patterns; other patterns do not match; C60 |
| `InText`, `SpecImages`, `ImageRe`, `ImageText`, `ImageRun`, `ImageKey`, `ImageDoc` | texts and documents in general, for further features; images; C63 |
| `SpecEnds`, `EndText`, `EndDoc`, `EndList`, `EndParse` | endnotes: references, definitions that vanish, the list of notes; C65 |
| `SpecExt`, `ExtLoop`, `ExtDoc` | extended blocks: the block loop with an open block; what is gathered in one element; C67 |
| `SpecCells`, `CellAtts`, `CellRe`, `CellGraf`, `CellRows`, `CellHtml`, `CellDoc` | tables with attributes, captions and spanning cells; C69 |
| `SpecDefs`, `DefRe`, `DefDoc` | definition lists; C72 |
| `SpecCaps`, `CapRe`, `CapText`, `CapDoc` | words in capitals and acronyms: the two patterns for them, and that no other stage changes the text; C75 |
| `SpanAtt`, `SpecClass`, `ClassText`, `ClassDoc` | marked parts with classes: what the span pattern captures, and that other patterns do not match; C78 |
| `SpecCite`, `CiteDoc` | quotations with the address of their source; C81 |
| `SpecAnchors`, `AnchorRe`, `AnchorText`, `AnchorRun`, `AnchorKey`, `AnchorDoc` | links with attributes and titles, and links that show their address; C83, C92 |
| `SpecRaw`, `RawDoc` | HTML rules and images on lines of their own, and indented texts: what `DIVIDER_RE` matches, and documents that can start with a space; C87 |
| `SpecInline`, `InlineMode` | texts without blocks (`set_block_tags(false)`) with marked parts; C90, C91 |
| `SpecSafe` | HTML that consists of Textile's own elements and attributes; C93, C94 |
| `SpecKind` | texts that are the same but for some parts; C96, C97 |
| `SpecLists`, `ListLoop`, `ListRe`, `ListGraf`, `ListBlock`, `ListDoc` | lists described as trees; the list stage; documents with lists |
| `Props/*` | the theorems of the manifest, with an example beside each |
| `Demo`, `UniOk`, `KernelRfl` | a concrete environment for the examples; assumptions on Unicode; a tactic |

`kernel_rfl` closes an equality by `rfl` and leaves the check to the kernel.  No theorem
uses `native_decide`, `bv_decide`, `sorry` or an axiom of our own.

### Per property

* C01–C04: `parse` as a whole; segment lemma for `replace_all`.
* C05, C46, C47: sequences of calls over the regex cache; invariant "every cached pattern is
  the one compiled for the current token".  Fails when `set_uid` follows a parse.
* C06–C08: `normalize_newlines`; invariance of the rewriting, lifted to `parse`.
* C09–C11, C13–C15, C51: documents of simple blocks through the whole pipeline.
* C36: documents with inline markup through the whole pipeline.
* C12, C23–C25, C50: the same classes of documents in lite and restricted mode, and
  witnesses of the failures.
* C40, C41: documents with lists through the whole pipeline, against trees of items.
* C16, C52: code and verbatim text, anywhere in documents with inline markup; witnesses of the failures.
* C53: links alone and in documents, for every URL library.
* C54: the HTML attributes of every well formed list of block attributes.
* C55: documents of blocks with attributes (also code and verbatim blocks), lists and inline markup, in any order.
* C37, C56: documents with footnotes; the failure when the footnote comes first.
* C57–C59: documents with tables; rows that change their place, text that is lost.
* C60–C62: documents with typographic signs; `rock'n'roll`, `[c]files`.
* C63, C64: documents with images; the title `R&D` in restricted mode.
* C38, C65, C66: documents with endnotes; definitions that come first are lost; ten notes in the wrong order.
* C67, C68: documents with extended blocks; code escaped twice in restricted mode.
* C69–C71: documents of tables with attributes; vertical alignments and cells that are lost, markup in class names.
* C72–C74: documents of definition lists; items that vanish, attributes given twice.
* C75–C77: documents with words in capitals and acronyms; `HTML5`; a link in an explanation.
* C78–C80: documents of marked parts with classes; groups that are lost.
* C81, C82: documents of quotations with addresses; addresses that are lost.
* C83, C84, C85, C86: documents with links with attributes and titles; titles and classes that are lost.
* C87, C88, C89: documents with HTML rules and images, and with indented texts; line breaks that are rewritten.
* C90, C91: marked parts when block tags are turned off, compared with paragraphs; code, which is looked for in paragraphs only.
* C92: links that show their address; addresses in which dashes and dimension signs are replaced.
* C93, C94: documents become Textile's own elements, properly nested, in restricted mode and whenever there is no `<` in them, also with extended blocks and endnotes; the two ways out (item 3 of the defects).
* C95: a document after another one, and when both are converted as if they were alone.
* C96: two runs that differ in the kind of HTML; what is written differently.
* C97: two runs that differ in the identifier; false for texts with a token in them.
* C98: two runs that differ in lite mode, for documents written for both modes.
* C99, C100: options without effect, for all texts: the two programs are the same.
* C101: the effects of a run in inline mode, for all texts.
* C102, C103: the tags of inline markup and of links in restricted mode, as they are stored,
  for all texts; the addresses and titles of links are placeholders at that point.
* C34: which texts lose the token; a text that keeps it.
* C26: witnesses of the failures; addresses of images.
* C17–C20: `htmltools.rs`, `block.rs` against a separate HTML decoder.
* C21, C22: `BlockAttributes::parse`.  C22 fails for unbalanced parentheses.
* C27–C30: decision logic of links and images for every URL library; independence of
  `parse` from the image function and from the network.
* C31, C42, C44, C45, C48, C49: the functions in question against direct descriptions.
* C32, C33, C35: state invariants preserved by every effect.
* C39, C43: back links of note lists; typographic replacement.

## Defects found

Each is the witness of a negation in `Props/Failures`, `Props/Restricted`, `Props/Wrong`,
`Props/Links`, … unless marked †, which are observations made while reading.

1. Panics: `p((-(. foo` (unbalanced parentheses in attributes, also inline), `* éabcd⏎foo`
   (byte offsets in `insert_brs`), a URL with `&` in restricted mode (`&amp;` in
   `reverse_encode_html`).
2. `parse` does not terminate on ` " c":x`, and duplicates text for `foo " c":http://x` †.
3. Restricted mode lets a script through in `"$":http://x/<script>…`, and an attribute in
   `ABC(@" onmouseover="…" x="@)`; it escapes code twice.
4. `encode_html` exchanges CR and LF.
5. The link around an image has no scheme check and no `rel`; URL aliases are not checked.
6. `set_uid` after a parse leaves stale patterns in the cache.
7. The token is removed in a single pass, so that it can be forged.
8. Notes: a reference overwrites an earlier definition; footnote definitions before their
   references get another id; back links beyond `~` run into markup.
9. Lite mode allows `bc.`; `set_raw_blocks` has no effect; `set_align_class` returns nothing †.
10. Lists that skip levels have unbalanced tags; the limit of five nested inline elements is
    not effective.  A start number that does not fit into a machine word is ignored.  An item with
    a character whose lower case has another length (`* 5 K⏎** foo` with the Kelvin sign) panics.
11. A `>` at the end of a URL is lost, and a matched `]` when bracketed text follows.
12. A last line of blanks is not normalised; the word `notelist` alone vanishes †.
13. A token base such as `3x4` is altered by the dimension glyph †; in lite mode `*foo*.` at the
    end of a text is not emphasised †; `*.foo*` begins a list.
14. Rows of a table before its first section are output after all sections; text before a table
    in the same block is lost.
15. The second apostrophe of `rock'n'roll` becomes an opening quotation mark; in `[c]files …` the word
    is taken for the URL of a link alias (alternatives without parentheses in the pattern) and lost.
16. Tables: vertical alignment is lost after a heading mark or a number of columns; a centred cell at the
    start of a table becomes the caption, with the rest of its row; a row loses its attributes if the
    alignment comes after another one; markup in a class name (`|(x _y_ z). a|`) becomes tags inside the attribute.
17. Definition lists: a line such as `-c` vanishes, and so does `- := f`; the attributes of a first term without
    definition appear on the list too, so that an identifier is given twice.
18. Acronyms: inline elements in an explanation become tags inside the `title` attribute; a link there ends the
    attribute, so that its address is read as further attributes, also in restricted mode.
19. A group in brackets at the start of a marked part is taken for its attributes and left out of the text even if there is no
    class or identifier in it: `*("Ann")two*` gives `<strong>two</strong>`.
20. The address of a quotation (`bq.:javascript:x text`) is not checked for its scheme, not even in restricted mode; an
    ampersand in it makes `parse` panic there; the address of a block of another kind (`h1.:url text`) is dropped.
21. In restricted mode the title of a link is escaped twice, like that of an image; a title with brackets in it is shown as
    text of the link.
22. A line of only HTML break tags counts as raw HTML like one of rules, but its tags are rewritten all the same; a rule on
    the line before a text goes into the paragraph of the text, where HTML does not allow it.
23. The address shown by a link with `$` as its text is treated as text: `a--b` is shown with a dash and `3x4` with a
    dimension sign, so that it is not the address any more.

## Wrong programs

`tools/mutate.py` applies the changes of `seeded/mutants*.json` to a copy of the model, one
at a time, builds it, and records in `seeded/LOG.jsonl` which declarations fail and which
theorems of the manifest depend on them.  Changes that no theorem notices lead to stronger
theorems or to new properties; the log records this too.

A theorem listed in `claims_lost` depends on a declaration that fails.  This does not show
that the theorem is false of the changed program, since a proof can also fail for its form.
`mutate.py` finds these theorems by name, which once listed nearly all theorems for a few
changes; `tools/lost.py` corrects the list with the dependencies that Lean reports.  With
`targets`, only some modules are built, and theorems elsewhere are not tested.  A module
that imports a failing one is not tested either (`blocked`, or the note of the entry).

## Trusted base

* The Lean kernel.
* The reading of the Rust source expressed by the model (see above for what is modelled and
  what is simplified).
* The model of the semantics of `fancy_regex` in `Verif/Regex.lean`, and of its syntax in
  `Verif/RegexParse.lean`.
* The specifications in `Verif/Spec.lean` and the statements in `Verif/Props`.

Axioms of the theorems of the manifest (`tools/axioms.py` makes this list; all are among
the three standard axioms of Lean):

<!-- axioms -->
* **none**: `C22_negation`, `C30_default`, `C35_five`, `C49_negation_brackets`
* **propext**: `C05_negation`, `C07_negation`, `C100_options_matter`, `C102_unrestricted`, `C12_negation`, `C16_negation`, `C16_negation_restricted`, `C17_negation`, `C18_negation`, `C22_negation_inline`, `C23_negation`, `C25_negation`, `C26_negation`, `C27_negation_alias`, `C27_negation_image_link`, `C27_negation_quotation`, `C28_negation`, `C34_negation`, `C35_negation`, `C37_negation`, `C38_negation`, `C39_negation`, `C39_negation_parse`, `C40_negation`, `C40_negation_lower`, `C41_negation`, `C44_relative_path`, `C45_negation`, `C48_initial`, `C49_negation`, `C50_negation`, `C52_negation`, `C61_apostrophe_fails`, `C64_alt_text_fails`, `C66_list_order_fails`, `C68_code_fails`, `C70_class_fails`, `C70_vertical_fails`, `C71_cells_kept_fails`, `C73_terms_kept_fails`, `C74_term_attributes_fails`, `C76_capitals_marked_fails`, `C77_explanations_fails`, `C79_classes_kept_fails`, `C82_address_kept_fails`, `C82_address_kept_fails_heading`, `C84_link_titles_fails`, `C84_link_titles_fails_brackets`, `C85_link_classes_fails`, `C88_rules_kept_fails`, `C88_rules_kept_fails_beside`, `C91_paragraph_of_unblocked_fails`, `C92_link_address_fails`, `C95_piecewise_fails`, `C97_identifiers_fails`, `C98_lite_fails`, `C99_sizes_matter`
* **Quot.sound, propext**: `C05_history_partial`, `C101_inline_only`, `C103_unrestricted`, `C20_css_class`, `C29_no_images`, `C30_no_network`, `C31_prefix`, `C32_numbers`, `C33_placeholders`, `C35_depth_partial`, `C35_limit`, `C39_back_links_partial`, `C46_options`, `C46_setters`, `C59_text_kept_fails`, `C62_text_kept_fails`, `C93_safe_fails`, `C94_no_tags_fails`
* **Classical.choice, Quot.sound, propext**: `C01_blank`, `C02_no_final_newline`, `C03_breaks`, `C04_sanitizer`, `C06_line_endings`, `C07_leading`, `C07_outer_newlines_partial`, `C08_blank_lines_partial`, `C09_paragraph`, `C09_plain_words`, `C100_inline_ignores`, `C102_restricted_inline`, `C103_restricted_links`, `C10_inline_mode`, `C11_headings`, `C12_lite_partial`, `C13_code_block`, `C14_notextile_block`, `C15_comment`, `C16_code_partial`, `C16_documents_partial`, `C17_escape_partial`, `C17_injective`, `C18_attribute_value_partial`, `C19_tag`, `C19_valid_names`, `C20_attributes`, `C20_order`, `C21_restricted_attributes`, `C22_attributes_partial`, `C23_C24_documents_partial`, `C24_negation`, `C25_documents_partial`, `C26_images_partial`, `C27_schemes_partial`, `C28_rel_partial`, `C31_probe`, `C32_ids`, `C33_no_overlap`, `C34_removed_partial`, `C36_documents`, `C36_markers`, `C37_reference_first_partial`, `C38_defined_later_partial`, `C39_start_characters`, `C40_balanced_partial`, `C40_documents_partial`, `C41_numbers_partial`, `C42_captured`, `C42_split`, `C43_tags_kept`, `C44_encoded`, `C45_ascii`, `C45_line_breaks_partial`, `C47_negation`, `C48_counters`, `C49_url_end_partial`, `C50_code_block_partial`, `C51_documents`, `C52_verbatim_partial`, `C53_link_partial`, `C54_attributes`, `C55_documents`, `C56_footnotes`, `C57_tables`, `C58_row_order_fails`, `C58_row_order_partial`, `C59_cell_kept_partial`, `C60_signs`, `C61_apostrophe_partial`, `C62_text_kept_partial`, `C63_images`, `C64_alt_text_partial`, `C65_endnotes`, `C66_list_order_partial`, `C67_extended`, `C68_code_partial`, `C69_table_attributes`, `C70_cell_attributes_partial`, `C71_cells_kept_partial`, `C72_definition_lists`, `C73_terms_kept_partial`, `C74_term_attributes_partial`, `C75_capitals`, `C76_capitals_marked_partial`, `C77_explanations_partial`, `C78_classes`, `C79_classes_kept_partial`, `C80_classes_restricted_partial`, `C81_citations`, `C82_address_kept_partial`, `C83_link_attributes`, `C84_link_titles_partial`, `C85_link_classes_partial`, `C86_links_restricted_partial`, `C87_raw_lines`, `C88_rules_kept_partial`, `C89_indented_kept_partial`, `C90_unblocked`, `C91_paragraph_of_unblocked_partial`, `C92_link_address_partial`, `C93_C94_endnotes_partial`, `C93_C94_extended_partial`, `C93_safe_partial`, `C94_no_tags_partial`, `C95_piecewise_partial`, `C96_endnotes_partial`, `C96_extended_partial`, `C96_kinds_partial`, `C97_endnotes_partial`, `C97_extended_partial`, `C97_identifiers_partial`, `C98_endnotes_partial`, `C98_extended_partial`, `C98_lite_partial`, `C99_sizes_ignored`, `quoteattr_shape`, `split_refines`
<!-- end of axioms -->
