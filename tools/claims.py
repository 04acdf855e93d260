c("C01", "proved", ["C01_blank"])
c("C02", "proved", ["C02_no_final_newline"])
c("C03", "proved", ["C03_breaks"])
c("C04", "proved", ["C04_sanitizer"])
c("C05", "partial", ["C05_history_partial", "C05_negation"],
  "Holds for every history in which set_uid does not follow a parse call; C05_negation shows that it fails otherwise (stale patterns in the regex cache).")
c("C17", "partial", ["C17_escape_partial", "C17_injective", "C17_negation"],
  "Round trip holds up to an exchange of CR and LF when spacers are encoded; C17_negation: encode_html swaps their references.")
c("C18", "partial", ["C18_attribute_value_partial", "C18_negation", "quoteattr_shape"],
  "Values containing CR or LF come back with the two exchanged (C18_negation).")
c("C19", "proved", ["C19_tag", "C19_valid_names"])
c("C20", "proved", ["C20_attributes", "C20_order", "C20_css_class"])
c("C27", "partial", ["C27_schemes_partial", "C27_negation_image_link", "C27_negation_alias", "C27_negation_quotation"],
  "Every link and image element is made with a URL entry that is relative or has an allowed scheme. Not so for the link around an image, for URL aliases and for the address of a quotation (negations). The step from the element to the output is covered for documents as in C40_documents_partial.")
c("C28", "partial", ["C28_rel_partial", "C53_link_partial", "C40_documents_partial", "C28_negation"],
  "Every element made for a Textile link has rel exactly as set; links around images do not (C28_negation). The step from the element to the output is covered for documents as in C40_documents_partial.")
c("C29", "proved", ["C29_no_images"])
c("C30", "proved", ["C30_no_network", "C30_default"])
c("C31", "proved", ["C31_probe", "C31_prefix"])
c("C32", "proved", ["C32_numbers", "C32_ids"])
c("C33", "proved", ["C33_placeholders", "C33_no_overlap"])
c("C35", "partial", ["C35_depth_partial", "C35_limit", "C35_five", "C35_negation"],
  "The depth counter is bounded and restored by every step, but the limit of five is not effective for the output: C35_negation exhibits six nested elements.")
c("C36", "proved", ["C36_documents", "C36_markers"],
  "C36_documents covers any number of marked parts in paragraphs, headings and quotations of several lines, in every mode; C36_markers is the single marked part. "
  "Plain text has no space at its ends, and does not begin with a full stop after `*` or `**` (that begins a list).")
c("C42", "proved", ["C42_split", "C42_captured", "split_refines"])
c("C43", "proved", ["C43_tags_kept"],
  "Stated of the function that cuts a text at its tags and replaces glyphs in the pieces between them.")
c("C45", "partial", ["C45_line_breaks_partial", "C45_ascii", "C45_negation"],
  "Exact for texts in ASCII, and for all texts whenever no panic occurs (with assumptions on the conversion to lower case); "
  "false for texts outside ASCII, where cutting at a byte offset may panic.")
c("C44", "proved", ["C44_relative_path", "C44_encoded"])
c("C46", "proved", ["C46_setters", "C46_options"])
c("C47", "partial", ["C47_negation"], "False: set_raw_blocks has no effect on any text.")
c("C48", "proved", ["C48_counters", "C48_initial"])
c("C06", "proved", ["C06_line_endings"])
c("C07", "partial", ["C07_leading", "C07_outer_newlines_partial", "C07_negation"],
  "Newlines before the text never matter. Newlines after the text do not matter unless the last line is made of blanks only (C07_negation).")
c("C08", "partial", ["C08_blank_lines_partial", "C07_negation"],
  "Proved for every line terminated by a newline; an unterminated last line of blanks is not normalised (C07_negation).")
c("C12", "partial", ["C12_lite_partial", "C12_negation"], "Proved for h1-h6, pre, notextile and fnN before ordinary text. False for bc. blocks.")
c("C16", "partial", ["C16_documents_partial", "C16_code_partial", "C16_negation", "C16_negation_restricted"],
  "False in general: == and <code> are processed inside @...@, and restricted mode escapes twice. Proved for all other texts (also without <notextile>): the exact HTML of code alone, and of code anywhere in documents with inline markup (C16_documents_partial).")
c("C52", "partial", ["C52_verbatim_partial", "C16_documents_partial", "C52_negation"],
  "False: a newline is put after a break tag in the text. Proved for texts without ==, <notextile> and break tags that do not end in = or in the beginning of a break tag; a text with a colon in it must not have a letter, digit or colon at its ends.")
c("C54", "proved", ["C54_attributes"], "Every combination of alignment, paddings and groups, in every order of groups; names of letters, digits, - and _. Elements of tables are excluded (they take further attributes).")
c("C55", "proved", ["C55_documents"], "Same assumptions as C09, and on lower case as C40. Where `(` is written as padding without any `)` in the attributes, the text must have no `)` in it (C22 shows what may happen otherwise). Restricted mode recognises only the alignment `=` (the others are escaped before). A verbatim block with a colon in it must not begin or end with a letter, digit or colon.")
c("C56", "proved", ["C56_footnotes"], "Same assumptions as C55. Texts with references are ordinary text otherwise (no other inline markup in the same block), and no reference follows a space.")
c("C57", "proved", ["C57_tables"], "Same assumptions as C56; lite mode is excluded for tables. Cells are ordinary text; an ordinary cell does not begin with a full stop or slash. Attributes of tables, rows and cells, captions and columns are not covered.")
c("C58", "partial", ["C58_row_order_partial", "C58_row_order_fails"], "False: rows before the first section come after all sections. Proved for tables without sections or starting with one, in documents as in C57.")
c("C59", "partial", ["C59_cell_kept_partial", "C59_text_kept_fails"], "False: text before a table in the same block is lost. Proved for the cells of tables in documents as in C57.")
c("C60", "proved", ["C60_signs"], "Same assumptions as C57. The texts between the signs are ordinary text (no inline markup, references or links in the same block); in restricted mode character references are excluded, because they are escaped. Each sign is in a place where it is meant to be recognised (Spec.Sign.Fits): quotation marks open after white space before a letter or digit and close before white space, comma, full stop or slash. Acronyms, capitals and dimensions are not covered.")
c("C61", "partial", ["C61_apostrophe_partial", "C61_apostrophe_fails"], "False: the second apostrophe of rock'n'roll becomes an opening quotation mark. Proved for one apostrophe in ordinary text.")
c("C62", "partial", ["C62_text_kept_partial", "C62_text_kept_fails"], "False: in `[c]files` the word is taken for a URL and lost. Proved in documents as in C60.")
c("C63", "proved", ["C63_images"], "Same assumptions as C60, with images on and without sizes. Addresses as for links; titles without quotation marks, parentheses and at signs; the texts around images are ordinary text, and there is a space before an image.")
c("C65", "proved", ["C65_endnotes"], "Same assumptions as C63. Texts are ordinary text with references; definitions are one line of ordinary text; at most one list, with at least one item and at most 26 references to a note; no options on the list.")
c("C66", "partial", ["C66_list_order_partial", "C66_list_order_fails"], "False: from ten notes on the numbers are sorted as texts. Proved for at most nine notes, in documents as in C65.")
c("C67", "proved", ["C67_extended"], "Same assumptions as C63. What follows an extended block is text with inline markup (code: any lines); extended comments are not covered.")
c("C69", "proved", ["C69_table_attributes"], "Assumptions as in C63. Alignments, classes with an identifier and languages, in this order; names of letters and digits; in restricted mode no alignment but centring; no column groups.")
c("C70", "partial", ["C70_cell_attributes_partial", "C70_vertical_fails", "C70_class_fails"], "False: vertical alignment after a heading mark or a number of columns is lost; markup in class names; attributes of rows in another order are lost. Proved in documents as in C69.")
c("C71", "partial", ["C71_cells_kept_partial", "C71_cells_kept_fails"], "False: a centred cell at the start of a table becomes a caption, with its whole row. Proved in documents as in C69.")
c("C72", "proved", ["C72_definition_lists"], "Assumptions as in C69. Terms and definitions are ordinary words on one line; classes with an identifier, and languages, in this order; some term has a definition.")
c("C73", "partial", ["C73_terms_kept_partial", "C73_terms_kept_fails"], "False: a line without a blank after its dash vanishes, and a definition without a term. Proved in documents as in C72.")
c("C74", "partial", ["C74_term_attributes_partial", "C74_term_attributes_fails"], "False: the attributes of a first term without definition are given to the list too. Proved for all terms in documents as in C72, and that the list has none if its first term has a definition.")
c("C68", "partial", ["C68_code_partial", "C68_code_fails"], "False in restricted mode: code is escaped twice. Proved in documents as in C67 if the mode is not restricted.")
c("C64", "partial", ["C64_alt_text_partial", "C64_alt_text_fails"], "False in restricted mode: an ampersand in the title is escaped twice. Proved in documents as in C63.")
c("C53", "partial", ["C53_link_partial", "C16_documents_partial", "C40_documents_partial"],
  "Proved: the exact HTML of a link alone, and of any number of links among other inline elements in documents with lists. Titles, classes and `$` as text are in C83 to C86 and C92. Missing: texts of links with markup in them, aliases, images as texts; addresses with & or @, brackets or characters outside ASCII; relative addresses with a query or fragment.")
c("C22", "partial", ["C22_attributes_partial", "C22_negation", "C22_negation_inline"], "Proved for attribute texts in which the opening and the closing parentheses form one run each. False in general: unbalanced parentheses panic.")
c("C75", "proved", ["C75_capitals"], "Documents of paragraphs and headings in which words of three or more capitals A-Z, possibly with lower-case letters after them or with an explanation of ordinary text of four or more characters in brackets, stand behind white space, together with all blocks of C72.")
c("C76", "partial", ["C76_capitals_marked_partial", "C76_capitals_marked_fails"], "Proved for documents as in C75. False in general: HTML5 is not marked.")
c("C77", "partial", ["C77_explanations_partial", "C77_explanations_fails"], "Proved for explanations that are ordinary text, in documents as in C75. False in general: a link in an explanation ends the attribute, also in restricted mode.")
c("C78", "proved", ["C78_classes"], "Documents of paragraphs and headings in which marked parts (all ten markers) have class names of letters, digits and spaces and identifiers of letters and digits, together with all blocks of C75.")
c("C79", "partial", ["C79_classes_kept_partial", "C79_classes_kept_fails"], "Proved for documents as in C78. False in general: an identifier with a space in it is lost, and a group in brackets with quotation marks in it is lost with its words.")
c("C80", "partial", ["C80_classes_restricted_partial"], "Proved for documents as in C78. Missing: parts with other attributes, and parts within parts.")
c("C81", "proved", ["C81_citations"], "Documents of quotations with attributes and the address of their source (visible ASCII characters; in restricted mode without those that are escaped), whose text has marked parts and line breaks, together with all blocks of C78.")
c("C82", "partial", ["C82_address_kept_partial", "C82_address_kept_fails", "C82_address_kept_fails_heading"], "Proved for documents as in C81. False in general: in restricted mode an ampersand in the address makes parse panic, and the address of a block that is not a quotation is lost.")
c("C83", "proved", ["C83_link_attributes"], "Documents of paragraphs, headings and quotations with links that have groups of classes and identifiers, styles and languages before their text (ordinary words) and a title behind it, together with all blocks of C81.")
c("C84", "partial", ["C84_link_titles_partial", "C84_link_titles_fails", "C84_link_titles_fails_brackets"], "Proved for documents as in C83 when the mode is not restricted or the title has no ampersand. False in general: in restricted mode the title is escaped twice, and a title with brackets in it becomes part of the text.")
c("C85", "partial", ["C85_link_classes_partial", "C85_link_classes_fails"], "Proved for links with a group of a class and an identifier in documents as in C83, when the mode is not restricted. False in general: an identifier with a space in it is lost.")
c("C86", "partial", ["C86_links_restricted_partial"], "Proved for documents as in C83. Missing: links with other texts and attributes, such as inline elements in their text.")
c("C87", "proved", ["C87_raw_lines"], "Documents of HTML tags of rules and images on lines of their own (unrestricted mode), of indented texts with links (every mode), and of all blocks of C83.")
c("C88", "partial", ["C88_rules_kept_partial", "C88_rules_kept_fails", "C88_rules_kept_fails_beside"], "Proved for tags of rules and images, in lower case, in a block of their own, in documents as in C87. False in general: tags of line breaks are rewritten, and a rule that is next to a line of text goes into its paragraph.")
c("C89", "partial", ["C89_indented_kept_partial"], "Proved for texts of ordinary words, only the first line of which starts with spaces, in documents as in C87; C87 gives the HTML if they have links. Missing: other inline markup in indented texts.")
c("C90", "proved", ["C90_unblocked"], "Texts with marked parts, with and without classes and identifiers, in every mode.")
c("C91", "partial", ["C91_paragraph_of_unblocked_partial", "C91_paragraph_of_unblocked_fails"], "Proved for texts with marked parts as in C90 that do not start like another block. False in general: code, for example, is looked for in paragraphs only.")
c("C92", "partial", ["C92_link_address_partial", "C92_link_address_fails"], "Proved for absolute addresses that are ordinary text after their scheme, in documents as in C83. False in general: dashes and dimension signs are also replaced in the address shown. Missing: relative addresses and aliases.")
c("C93", "partial", ["C93_safe_partial", "C93_C94_extended_partial", "C93_C94_endnotes_partial", "C93_safe_fails"], "Proved for documents as in C87, with extended blocks as in C67, and with endnotes as in C65. False in general: the text of a link written as `$` is not escaped. Missing: nested markup, link aliases, and documents that mix these three kinds.")
c("C94", "partial", ["C94_no_tags_partial", "C93_C94_extended_partial", "C93_C94_endnotes_partial", "C94_no_tags_fails"], "Proved for documents as in C87, with extended blocks as in C67, and with endnotes as in C65, in every mode. False in general: code in the explanation of an acronym puts an element into the value of an attribute. Missing: as in C93.")
c("C95", "partial", ["C95_piecewise_partial", "C95_piecewise_fails"], "Proved for documents as in C87, if neither items of numbered lists nor footnotes are counted in the first one. False in general: the numbers of lists go on in the same document.")
c("C96", "partial", ["C96_kinds_partial", "C96_extended_partial", "C96_endnotes_partial"], "Proved for documents as in C87, with extended blocks as in C67, and with endnotes as in C65. Missing: other documents.")
c("C97", "partial", ["C97_identifiers_partial", "C97_extended_partial", "C97_endnotes_partial", "C97_identifiers_fails"], "False for a text with the token of one of the parsers in it. Proved for documents as in C87, with extended blocks as in C67, and with endnotes as in C65.")
c("C98", "partial", ["C98_lite_partial", "C98_extended_partial", "C98_endnotes_partial", "C98_lite_fails"], "False for marks before a sign at the end of a text, which lite mode does not read. Proved for documents as in C87, with extended blocks as in C67, and with endnotes as in C65, as long as they are written for both modes.")
c("C99", "proved", ["C99_sizes_ignored", "C99_sizes_matter"], "For every text. C99_sizes_matter is an example with images, where it makes a difference.")
c("C100", "proved", ["C100_inline_ignores", "C100_options_matter"], "For every text and any calls of these setters. C100_options_matter is an example outside inline mode, where they make a difference.")
c("C101", "proved", ["C101_inline_only"], "For every text: everything put on the shelf or into the cache of tags during parse is a quoted quotation mark or a tag of inline markup. The elements for words in capitals and acronyms are not stored but written directly.")
c("C102", "proved", ["C102_restricted_inline", "C102_unrestricted"], "For every text and every mode: the tags of inline markup as they are put into the cache of tags during parse. C102_unrestricted shows that this needs restricted mode. The elements for words in capitals and acronyms are not stored but written directly, and are not covered.")
c("C103", "proved", ["C103_restricted_links", "C103_unrestricted"], "For every text and every mode: the links as they are set aside during parse, with placeholders for the address and the title. What is later put in place of these is not covered (see C26, C27). C103_unrestricted shows that this needs restricted mode. The links that images, footnotes and notes contain are not covered.")
c("C23", "partial", ["C23_C24_documents_partial", "C36_documents", "C16_documents_partial", "C40_documents_partial", "C55_documents", "C56_footnotes", "C57_tables", "C60_signs", "C63_images", "C65_endnotes", "C67_extended", "C69_table_attributes", "C72_definition_lists", "C75_capitals", "C78_classes", "C81_citations", "C83_link_attributes", "C87_raw_lines", "C23_negation"], "False: three texts that panic. Proved for documents of simple blocks, with inline markup, code, verbatim text and links, with lists, with block attributes, with footnotes, with tables, with typographic signs, with images, with endnotes, with extended blocks, with table attributes, with definition lists, with words in capitals, with classes of marked parts, with addresses of quotations, with attributes and titles of links, and with HTML rules and indented texts.")
c("C24", "partial", ["C23_C24_documents_partial", "C36_documents", "C16_documents_partial", "C40_documents_partial", "C55_documents", "C56_footnotes", "C57_tables", "C60_signs", "C63_images", "C65_endnotes", "C67_extended", "C69_table_attributes", "C72_definition_lists", "C75_capitals", "C78_classes", "C81_citations", "C83_link_attributes", "C87_raw_lines", "C24_negation"], "False: a text for which parse does not terminate. Proved for documents of simple blocks, with inline markup, code, verbatim text and links, with lists, with block attributes, with footnotes, with tables, with typographic signs, with images, with endnotes, with extended blocks, with table attributes, with definition lists, with words in capitals, with classes of marked parts, with addresses of quotations, with attributes and titles of links, and with HTML rules and indented texts.")
c("C25", "partial", ["C25_documents_partial", "C93_safe_partial", "C25_negation"], "False: a script element from a URL in restricted mode. Proved for documents of simple blocks with arbitrary text in code, preformatted and verbatim blocks and comments, and for documents as in C87.")
c("C26", "partial", ["C26_images_partial", "C77_explanations_partial", "C93_safe_partial", "C26_negation", "C77_explanations_fails"], "False: attribute injection through an acronym. Proved for the addresses of images and of their links, in documents as in C63, and for explanations of acronyms that are ordinary text, in documents as in C75, and for all attributes in documents as in C87.")
c("C34", "partial", ["C34_removed_partial", "C34_negation"], "False: the token is removed in a single pass. Proved for texts in which the token is nowhere directly followed by one of its own characters.")
c("C37", "partial", ["C37_reference_first_partial", "C37_negation"], "False when the definition comes first. Proved for documents as in C56 in which a reference comes first, whatever is between it and the definition.")
c("C38", "partial", ["C38_defined_later_partial", "C38_negation"], "False when the definition comes first, and for all references but the first. Proved for the first reference when the definition comes later, in documents as in C65.")
c("C39", "partial", ["C39_back_links_partial", "C39_start_characters", "C39_negation", "C39_negation_parse"], "Proved as long as the characters after the starting one are harmless. False in general: back link characters run into '<'.")
c("C40", "partial", ["C40_documents_partial", "C40_balanced_partial", "C40_negation", "C40_negation_lower"],
  "False for lists that skip levels or change their kind at some depth (C40_negation); a panic where lower case has another length (C40_negation_lower). "
  "Proved for trees of items of any depth and length, in documents together with paragraphs, headings and quotations with inline markup: the exact HTML, and that it is balanced. Items are ordinary text.")
c("C41", "partial", ["C41_numbers_partial", "C41_negation"],
  "Proved for documents as in C40_documents_partial. False for numbers that do not fit into a machine word, which are ignored (C41_negation).")
c("C49", "partial", ["C49_url_end_partial", "C49_negation", "C49_negation_brackets"], "False: a '>' at the end is lost (C49_negation), and a matched ']' is lost when bracketed text follows it (C49_negation_brackets). Proved for every URL without '>': nothing but closing brackets is lost, and the URL kept does not end in punctuation.")
c("C50", "partial", ["C50_code_block_partial", "C50_negation"], "False: escaped twice. Proved for texts without & < >; in general the displayed text is the escaped one.")
c("C09", "proved", ["C09_plain_words", "C09_paragraph"], "Proved for a larger class than stated: letters, digits, commas, full stops and several lines (C09_paragraph). Assumes that the token base is plain letters and digits (as the default one is) and no sanitizer.")
c("C10", "proved", ["C10_inline_mode"], "Same assumptions as C09.")
c("C11", "proved", ["C11_headings"], "Same assumptions as C09.")
c("C13", "proved", ["C13_code_block"], "Same assumptions as C09; holds in lite mode too.")
c("C14", "proved", ["C14_notextile_block"], "Same assumptions as C09.")
c("C15", "proved", ["C15_comment"], "Same assumptions as C09.")
c("C51", "proved", ["C51_documents"], "Same assumptions as C09; a notextile block must not contain break tags.")
c("C21", "proved", ["C21_restricted_attributes"], "")
